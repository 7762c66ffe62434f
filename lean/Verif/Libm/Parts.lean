import Verif.Libm.MinMax
/-!
# Model of frexp, ilogb, modf, nextafter

`modf`/`modff` and `nextafter`/`nextafterf` are separate functions in libm which differ only in the constants of the
format; they are modelled once, with the constants taken from the format. `force_eval!` (floating-point exceptions) is
not modelled.
-/
namespace Verif
namespace Fmt
variable (F : Fmt)

/-- frexp.rs 22-25: the common end of both paths. -/
def frexpFin (ee : Int) (ix : BitVec F.w) : M (BitVec F.w × Int) := do
  let b ← i32C ((F.bias : Int) - 1)
  let e ← i32C (ee - b)
  let ix := ix &&& (F.signMask ||| F.sigMask)
  let t ← nsubC F.bias 1
  let t ← castU F.w t
  let t ← shlC t F.s
  pure (ix ||| t, e)

/-- `frexp`, generic/frexp.rs 4-26. -/
def frexp (x : BitVec F.w) : M (BitVec F.w × Int) := do
  if F.ex x = 0 then
    if F.feq x F.zero then pure (x, 0)
    else do
      let (ee, ix) ← F.normalize (x &&& F.sigMask)
      F.frexpFin ee (ix ||| (x &&& F.signMask))
  else if F.ex x = F.expSat then pure (x, 0)
  else F.frexpFin (F.ex x) x

/-- ilogb.rs 20-23: the normalisation loop. -/
def ilogbLoop : Nat → Int → BitVec F.w → M Int
  | 0, _, _ => .error .fuel
  | fuel + 1, e, i => do
    let t ← shrC i (F.w - 1)
    if t = 0#F.w then do
      let e ← i32C (e - 1)
      let i ← shlC i 1
      ilogbLoop fuel e i
    else pure e

/-- `ilogb`, generic/ilogb.rs 7-35. -/
def ilogb (x : BitVec F.w) : M Int := do
  if F.ex x = 0 then do
    let i ← shlC x (F.e + 1)
    if i = 0#F.w then pure (-2 ^ 31)
    else do
      let e ← i32C (-(F.bias : Int))
      F.ilogbLoop F.w e i
  else if F.ex x = F.expSat then do
    let i ← shlC x (F.e + 1)
    pure (if i ≠ 0#F.w then -2 ^ 31 else 2 ^ 31 - 1)
  else i32C ((F.ex x : Int) - F.bias)

/-- `modf`, modf.rs 2-35; `modff`, modff.rs 2-34. -/
def modf (N : FPU F) (x : BitVec F.w) : M (BitVec F.w × BitVec F.w) := do
  let e ← i32C ((F.ex x : Int) - F.bias)
  if e ≥ F.s then do
    let t ← shlC x (F.e + 1)
    if e = (F.expSat : Int) - F.bias ∧ t ≠ 0#F.w then pure (x, x)
    else pure (x &&& F.signMask, x)
  else if e < 0 then pure (x, x &&& F.signMask)
  else do
    let mask ← shrC F.sigMask e.toNat
    if x &&& mask = 0#F.w then pure (x &&& F.signMask, x)
    else
      let rv2 := x &&& ~~~mask
      pure (N.sub x rv2, rv2)

/-- `nextafter`, nextafter.rs 2-37; `nextafterf`, nextafterf.rs 2-37. -/
def nextafter (N : FPU F) (x y : BitVec F.w) : M (BitVec F.w) := do
  if F.isNan x || F.isNan y then pure (N.add x y)
  else if x = y then pure y
  else
    let ax := x &&& F.absMask
    let ay := y &&& F.absMask
    if ax = 0#F.w then
      if ay = 0#F.w then pure y
      else pure ((y &&& F.signMask) ||| 1#F.w)
    else if ax > ay ∨ (x ^^^ y) &&& F.signMask ≠ 0#F.w then subC x 1#F.w
    else addC x 1#F.w

end Fmt
end Verif
