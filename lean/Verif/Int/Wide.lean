import Verif.Int.DInt
import Verif.Int.Lz
/-!
# Model of `u256` / `i256`

`libm/src/math/support/big.rs`. The limb width `h` is a parameter (128 in the code); the methods shared
by `u256` and `i256` through `impl_common!` are modelled once with a flag `signed` that selects the
meaning of the operators on the high limb.
-/
namespace Verif

/-- `u256` and `i256`, big.rs 12-18 and 36-42: a high and a low limb. -/
structure Wide (h : Nat) where
  hi : BitVec h
  lo : BitVec h
  deriving DecidableEq, Repr

namespace Wide
variable {h : Nat}

/-- Signed `overflowing_add`: wrapped sum and "the exact sum is not representable". -/
def soverflowingAdd {w} (a b : BitVec w) : BitVec w × Bool :=
  (a + b, !decide (-(2 ^ (w - 1) : Int) ≤ a.toInt + b.toInt ∧ a.toInt + b.toInt < 2 ^ (w - 1)))
/-- Signed `overflowing_sub`. -/
def soverflowingSub {w} (a b : BitVec w) : BitVec w × Bool :=
  (a - b, !decide (-(2 ^ (w - 1) : Int) ≤ a.toInt - b.toInt ∧ a.toInt - b.toInt < 2 ^ (w - 1)))

/-- `Int::carrying_add`, int_traits.rs 194-200. -/
def carryingAdd {w} (signed : Bool) (a b : BitVec w) (carry : Bool) : BitVec w × Bool :=
  let oadd := if signed then soverflowingAdd else overflowingAdd
  let (ab, of1) := oadd a b
  let (abc, of2) := oadd ab (if carry then 1#w else 0#w)
  (abc, of1 ^^ of2)

/-- `Int::borrowing_sub`, int_traits.rs 202-206. -/
def borrowingSub {w} (signed : Bool) (a b : BitVec w) (borrow : Bool) : BitVec w × Bool :=
  let osub := if signed then soverflowingSub else overflowingSub
  let (ab, of1) := osub a b
  let (abc, of2) := osub ab (if borrow then 1#w else 0#w)
  (abc, of1 ^^ of2)

/-- `BitOr`, big.rs 91-99. -/
def or (x y : Wide h) : Wide h := { lo := x.lo ||| y.lo, hi := x.hi ||| y.hi }
/-- `Not`, big.rs 101-109. -/
def not (x : Wide h) : Wide h := { lo := ~~~ x.lo, hi := ~~~ x.hi }

/-- `Add` without the overflow assertion (as compiled in release mode), big.rs 114-119: result and the
overflow flag `of`. -/
def addRaw (signed : Bool) (x y : Wide h) : Wide h × Bool :=
  let (lo, carry) := overflowingAdd x.lo y.lo
  let (hi, of) := carryingAdd signed x.hi y.hi carry
  ({ lo, hi }, of)
/-- `Add`, big.rs 114-119. -/
def add (signed : Bool) (x y : Wide h) : M (Wide h) := do
  let (r, of) := addRaw signed x y
  assertC !of
  pure r

/-- `Sub` without the overflow assertion, big.rs 125-130. -/
def subRaw (signed : Bool) (x y : Wide h) : Wide h × Bool :=
  let (lo, borrow) := overflowingSub x.lo y.lo
  let (hi, of) := borrowingSub signed x.hi y.hi borrow
  ({ lo, hi }, of)
/-- `Sub`, big.rs 125-130. -/
def sub (signed : Bool) (x y : Wide h) : M (Wide h) := do
  let (r, of) := subRaw signed x y
  assertC !of
  pure r

/-- `Shl<u32>`, big.rs 133-157. The bit operations on the shift amount are those of the code. -/
def shl (x : Wide h) (rhs : Nat) : M (Wide h) := do
  assertC (rhs < 2 * h)
  let halfBits := 2 * h / 2
  let lowMask ← nsubC halfBits 1
  let s := rhs &&& lowMask
  let lo ← shlC x.lo s
  if rhs &&& halfBits = 0 then
    let t ← shrC x.lo (lowMask ^^^ s)
    let t ← shrC t 1
    let u ← shlC x.hi s
    pure { lo, hi := t ||| u }
  else
    pure { lo := 0#h, hi := lo }

/-- `>>` on the high limb: arithmetic for `i256`, logical for `u256`. -/
def shrHi (signed : Bool) (a : BitVec h) (n : Nat) : M (BitVec h) :=
  if n < h then .ok (if signed then a.sshiftRight n else a >>> n) else .error .shift

/-- `Shr<u32>`, big.rs 159-184. -/
def shr (signed : Bool) (x : Wide h) (rhs : Nat) : M (Wide h) := do
  assertC (rhs < 2 * h)
  let halfBits := 2 * h / 2
  let lowMask ← nsubC halfBits 1
  let s := rhs &&& lowMask
  let hi ← shrHi signed x.hi s
  if rhs &&& halfBits = 0 then
    let t ← shlC x.hi (lowMask ^^^ s)
    let t ← shlC t 1
    let u ← shrC x.lo s
    pure { hi, lo := t ||| u }
  else
    pure { lo := hi, hi := if signed && x.hi.slt 0#h then ~~~ 0#h else 0#h }

/-- Derived `PartialOrd`/`Ord`, big.rs 14 and 38: fields compared in declaration order (`hi`, `lo`). -/
def lt (signed : Bool) (x y : Wide h) : Bool :=
  (if signed then x.hi.slt y.hi else x.hi.ult y.hi) || (x.hi == y.hi && x.lo.ult y.lo)

/-- `u128::widen` / `zero_widen`, big.rs 194-200. -/
def widen (x : BitVec h) : Wide h := { lo := x, hi := 0#h }
/-- `i128::widen`, big.rs 235-240. -/
def widenS (x : BitVec h) : Wide h := { lo := x, hi := if x.slt 0#h then -1#h else 0#h }
/-- `widen_hi`, big.rs 227-229 and 254-256. -/
def widenHi (x : BitVec h) : Wide h := { lo := 0#h, hi := x }
/-- `DInt::from_lo_hi`, int_traits.rs 328-330, at `u256`. -/
def fromLoHi (l u : BitVec h) : Wide h := (widen l).or (widenHi u)

/-- `u128::zero_widen_mul`, big.rs 202-221 (`h = 2 * g`, `g = 64`). -/
def zeroWidenMul {g : Nat} (a b : BitVec (2 * g)) : M (Wide (2 * g)) := do
  let mask := BitVec.ofNat (2 * g) (2 ^ g - 1)
  let l0 := a &&& mask
  let l1 := b &&& mask
  let h0 ← shrC a g
  let h1 ← shrC b g
  let pll := l0 * l1
  let plh := l0 * h1
  let phl := h0 * l1
  let phh := h0 * h1
  let t ← shrC pll g
  let s0 ← addC phl t
  let t ← shlC s0 g
  let s1 ← addC (pll &&& mask) t
  let t ← shrC s1 g
  let s2 ← addC plh t
  let t ← shlC s2 g
  let lo ← addC (pll &&& mask) t
  let t ← shrC s0 g
  let hi ← addC phh t
  let t ← shrC s2 g
  let hi ← addC hi t
  pure { lo, hi }

end Wide
end Verif
