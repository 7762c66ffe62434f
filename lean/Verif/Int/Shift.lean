import Verif.Int.DInt
/-!
# Model of `compiler-builtins/src/int/shift.rs`

The half width is a power of two `2 ^ k` (16, 32 or 64 in the code), because the code tests
`shl & n_h` for a single bit. The shift amount is a `u32`, modelled as `Nat`.
-/
namespace Verif

/-- `Ashl::ashl`, shift.rs 5-18; `__ashlsi3`, `__ashldi3`, `__ashlti3`. -/
def ashl {k : Nat} (x : BitVec (2 * 2 ^ k)) (shl : Nat) : M (BitVec (2 * 2 ^ k)) := do
  let nh := 2 ^ k
  if shl &&& nh ≠ 0 then
    let d ← nsubC shl nh
    pure (widenHi (wshl (lo x) d))
  else if shl = 0 then
    pure x
  else
    pure (fromLoHi (wshl (lo x) shl) (wshr (lo x) (wsub32 nh shl) ||| wshl (hi x) shl))

/-- `Ashr::ashr`, shift.rs 27-43 (signed types); `__ashrsi3`, `__ashrdi3`, `__ashrti3`. -/
def ashr {k : Nat} (x : BitVec (2 * 2 ^ k)) (shr : Nat) : M (BitVec (2 * 2 ^ k)) := do
  let nh := 2 ^ k
  if shr &&& nh ≠ 0 then
    let d ← nsubC shr nh
    let s ← nsubC nh 1
    pure (fromLoHi (wsshr (hiS x) d) (wsshr (hiS x) s))
  else if shr = 0 then
    pure x
  else
    pure (fromLoHi (wshr (lo x) shr ||| wshl (hiS x) (wsub32 nh shr)) (wsshr (hiS x) shr))

/-- `Lshr::lshr`, shift.rs 52-64; `__lshrsi3`, `__lshrdi3`, `__lshrti3`. -/
def lshr {k : Nat} (x : BitVec (2 * 2 ^ k)) (shr : Nat) : M (BitVec (2 * 2 ^ k)) := do
  let nh := 2 ^ k
  if shr &&& nh ≠ 0 then
    let d ← nsubC shr nh
    pure (zeroWiden (wshr (hi x) d))
  else if shr = 0 then
    pure x
  else
    pure (fromLoHi (wshr (lo x) shr ||| wshl (hi x) (wsub32 nh shr)) (wshr (hi x) shr))

end Verif
