import Verif.Int.DInt
import Verif.Int.Lz
/-!
# Model of the unsigned division algorithms

`compiler-builtins/src/int/specialized_div_rem/*.rs` and `compiler-builtins/src/int/udiv.rs`.

The macros are modelled with the bit width as a parameter. `leading_zeros` is the core primitive `nlz`.
The macro argument `$zero_div_fn` is `core::intrinsics::unreachable()` (specialized_div_rem/mod.rs
73-78), i.e. undefined behaviour: `.error .ub`.
The half-size division is a parameter `half`, because it is a macro parameter, and because on targets
without a divider the compiler lowers it to the software routine of the next smaller size.
-/
namespace Verif

/-- Result type of a `w`-bit division: quotient and remainder. -/
abbrev DivRem (w : Nat) := BitVec w → BitVec w → M (BitVec w × BitVec w)

/-- `u64_by_u64_div_rem` / `u32_by_u32_div_rem`, specialized_div_rem/mod.rs 134-141, 235-242:
`checked_div` and `checked_rem`, unreachable when the divisor is zero. -/
def nativeDivRem {w} : DivRem w := fun duo div =>
  if div = 0#w then .error .ub else .ok (duo / div, duo % div)

/-- The bisection loop of the normalisation shift, norm_shift.rs 76-91. -/
def normBisect {w} (div : BitVec w) (test : BitVec w) (shl lvl : Nat) : M Nat := do
  let tmp ← shrC test lvl
  let (test, shl) := if div.toNat ≤ tmp.toNat then (tmp, shl + lvl) else (test, shl)
  let lvl' := lvl / 2
  if lvl' = 0 then pure shl else normBisect div test shl lvl'
termination_by lvl
decreasing_by omega

/-- `$name(duo, div, full_normalization)`, norm_shift.rs 49-104. `useLz` is the macro parameter
`$use_lz` (`USE_LZ`, specialized_div_rem/mod.rs 80-111: target dependent). -/
def normShift {w} (useLz : Bool) (duo div : BitVec w) (full : Bool) : M Nat :=
  if useLz then do
    let shl ← nsubC (nlz div) (nlz duo)
    if full then
      let d ← shlC div shl
      if duo.toNat < d.toNat then nsubC shl 1 else pure shl
    else pure shl
  else normBisect div duo 0 (w / 2)

/-- The central loop of `impl_binary_long`, binary_long.rs 428-440. `div` is the decremented divisor. -/
def binaryLongLoop {w} (div : BitVec w) : Nat → BitVec w → BitVec w
  | 0, duo => duo
  | i + 1, duo =>
    let duo := duo <<< 1 - div
    let mask := duo.sshiftRight (w - 1)
    let duo := duo + (div &&& mask)
    binaryLongLoop div i duo

/-- `impl_binary_long`, binary_long.rs 23-31 and 400-442. -/
def binaryLong {w} (useLz : Bool) : DivRem w := fun duo div => do
  if div = 0#w then
    .error .ub
  else if duo.toNat < div.toNat then
    pure (0#w, duo)
  else
    let divOriginal := div
    let shl ← normShift useLz duo div true
    let div ← shlC div shl
    let duo := duo - div
    let quo ← shlC 1#w shl
    if duo.toNat < divOriginal.toNat then
      pure (quo, duo)
    else if div.msb then
      let div ← shrC div 1
      let shl ← nsubC shl 1
      let tmp ← shlC 1#w shl
      let mask ← subC tmp 1#w
      let sub := duo - div
      let (duo, quo) := if sub.msb then (duo, quo) else (sub, quo ||| tmp)
      if duo.toNat < divOriginal.toNat then
        pure (quo, duo)
      else
        let duo := binaryLongLoop (div - 1#w) shl duo
        let rem ← shrC duo shl
        pure ((duo &&& mask) ||| quo, rem)
    else
      let mask ← subC quo 1#w
      let duo := binaryLongLoop (div - 1#w) shl duo
      let rem ← shrC duo shl
      pure ((duo &&& mask) ||| quo, rem)

/-- The restoring loop of `impl_delegate` that stops as soon as the high half of `duo` vanishes
(delegate.rs 81-96 and 138-156): returns the final `duo` and `quo_lo`. The Rust loop has no bound;
`fuel` counts the iterations and running out of it is a fault. -/
def delegateLoopHi {n} : (fuel : Nat) → (duo div : BitVec (2 * n)) → (powLo quoLo : BitVec n) →
    M (BitVec (2 * n) × BitVec n)
  | 0, _, _, _, _ => .error .fuel
  | fuel + 1, duo, div, powLo, quoLo =>
    let sub := duo - div
    if sub.msb = false then
      let quoLo := quoLo ||| powLo
      if hi sub = 0#n then pure (sub, quoLo)
      else delegateLoopHi fuel sub (div >>> 1) (powLo >>> 1) quoLo
    else delegateLoopHi fuel duo (div >>> 1) (powLo >>> 1) quoLo

/-- The restoring loop of `impl_delegate` that stops when `duo < div_original` (delegate.rs
170-181). -/
def delegateLoopFull {n} (divOriginal : BitVec (2 * n)) :
    (fuel : Nat) → (duo div : BitVec (2 * n)) → (powLo quoLo : BitVec n) →
    M (BitVec (2 * n) × BitVec n)
  | 0, _, _, _, _ => .error .fuel
  | fuel + 1, duo, div, powLo, quoLo =>
    let sub := duo - div
    if sub.msb = false then
      let quoLo := quoLo ||| powLo
      if sub.toNat < divOriginal.toNat then pure (sub, quoLo)
      else delegateLoopFull divOriginal fuel sub (div >>> 1) (powLo >>> 1) quoLo
    else delegateLoopFull divOriginal fuel duo (div >>> 1) (powLo >>> 1) quoLo

/-- The short division by a divisor of at most `q` bits: three half-size divisions
(delegate.rs 106-118, trifecta.rs 90-103). `duoHi` is the high half of `duo`, `div0` the divisor. -/
def shortDiv {q} (half : DivRem (2 * q)) (duo : BitVec (2 * (2 * q))) (duoHi div0 : BitVec (2 * q)) :
    M (BitVec (2 * (2 * q)) × BitVec (2 * (2 * q))) := do
  let (quoHi, rem3) ← half duoHi div0
  let d ← shrC duo q
  let r3 ← shlC rem3 q
  let duoMid := zeroWiden (d.setWidth q) ||| r3
  let (quo1, rem2) ← half duoMid div0
  let r2 ← shlC rem2 q
  let duoLo := zeroWiden (duo.setWidth q) ||| r2
  let (quo0, rem1) ← half duoLo div0
  let q1 ← shlC (zeroWiden quo1) q
  let q2 ← shlC (zeroWiden quoHi) (2 * q)
  pure (zeroWiden quo0 ||| q1 ||| q2, zeroWiden rem1)

/-- `impl_delegate`, delegate.rs 20-184 (`n = 2q` is the width of the half-size integers).
`u128_divide_sparc` (delegate.rs 197-317) is the same program with `n = 64` written out, returning
the remainder through a pointer. -/
def delegate {q} (useLz : Bool) (half : DivRem (2 * q)) : DivRem (2 * (2 * q)) := fun duo div => do
  let n := 2 * q
  let duoLo := lo duo
  let duoHi := hi duo
  let divLo := lo div
  let divHi := hi div
  if divHi = 0#(2 * q) then
    if divLo = 0#(2 * q) then
      .error .ub
    else if duoHi = 0#(2 * q) then
      let (a, b) ← half duoLo divLo
      pure (zeroWiden a, zeroWiden b)
    else if duoHi.toNat < divLo.toNat then
      let ns ← normShift useLz divLo duoHi false
      let shl ← (if ns = 0 then nsubC n 1 else nsubC n ns)
      let div ← shlC div shl
      let powLo ← shlC 1#(2 * q) shl
      let (duo, quoLo) ← delegateLoopHi (n + 1) duo div powLo 0#(2 * q)
      let (a, b) ← half (lo duo) divLo
      pure (zeroWiden (quoLo ||| a), zeroWiden b)
    else if duoHi = divLo then
      let (a, b) ← half (lo duo) (lo div)
      let one ← shlC 1#(2 * (2 * q)) n
      pure (one ||| zeroWiden a, zeroWiden b)
    else
      let s ← shrC divLo q
      if s = 0#(2 * q) then
        shortDiv half duo duoHi (zeroWiden (divLo.setWidth q))
      else
        let (quoHi, r) ← half duoHi divLo
        let rh ← shlC (zeroWiden r) n
        let duo := zeroWiden duoLo ||| rh
        if duo.toNat < div.toNat then
          let qh ← shlC (zeroWiden quoHi) n
          pure (qh, duo)
        else
          let div ← shlC div (n - 1)
          let powLo ← shlC 1#(2 * q) (n - 1)
          let (duo, quoLo) ← delegateLoopHi (n + 1) duo div powLo 0#(2 * q)
          let (a, b) ← half (lo duo) divLo
          let qh ← shlC (zeroWiden quoHi) n
          pure (zeroWiden a ||| zeroWiden quoLo ||| qh, zeroWiden b)
  else if duoHi = 0#(2 * q) then
    pure (0#_, duo)
  else if duo.toNat < div.toNat then
    pure (0#_, duo)
  else
    let shl ← normShift useLz duoHi divHi false
    let d ← shlC div shl
    let powLo ← shlC 1#(2 * q) shl
    let (duo, quoLo) ← delegateLoopFull div (n + 1) duo d powLo 0#(2 * q)
    pure (zeroWiden quoLo, duo)

/-- The x86 `div` instruction (specialized_div_rem/mod.rs 198-215, 284-301): divides the double-width
`duo` by `div`; a divide-error exception occurs if the divisor is zero or the quotient does not fit. -/
def asymDiv {n} (duo : BitVec (2 * n)) (div : BitVec n) : M (BitVec n × BitVec n) :=
  if div = 0#n then .error .divZero
  else if 2 ^ n ≤ duo.toNat / div.toNat then .error .ub
  else .ok (BitVec.ofNat n (duo.toNat / div.toNat), BitVec.ofNat n (duo.toNat % div.toNat))

/-- `impl_asymmetric`, asymmetric.rs 20-67. -/
def asymmetric {n} (half : DivRem n) : DivRem (2 * n) := fun duo div => do
  let duoLo := lo duo
  let duoHi := hi duo
  let divLo := lo div
  let divHi := hi div
  if divHi = 0#n then
    if divLo = 0#n then
      .error .ub
    else if duoHi.toNat < divLo.toNat then
      let (quo, rem) ← asymDiv duo divLo
      pure (zeroWiden quo, zeroWiden rem)
    else
      let (quoHi, remHi) ← half duoHi divLo
      let rh ← shlC (zeroWiden remHi) n
      let (a, b) ← asymDiv (zeroWiden duoLo ||| rh) divLo
      let qh ← shlC (zeroWiden quoHi) n
      pure (zeroWiden a ||| qh, zeroWiden b)
  else
    let divLz := nlz divHi
    let divExtra ← nsubC n divLz
    let divSigN := lo (← shrC div divExtra)
    let (t, _) ← asymDiv (← shrC duo 1) divSigN
    let sh ← nsubC (n - 1) divLz
    let quo ← shrC t sh
    let quo ← (if quo ≠ 0#n then subC quo 1#n else pure quo)
    let rem ← subC duo (zeroWiden quo * div)
    if div.toNat ≤ rem.toNat then
      let quo ← addC quo 1#n
      let rem ← subC rem div
      pure (zeroWiden quo, rem)
    else pure (zeroWiden quo, rem)

/-- `carrying_mul`, trifecta.rs 25-28. -/
def carryingMul {n} (lhs rhs : BitVec n) : BitVec n × BitVec n :=
  let tmp := zeroWiden lhs * zeroWiden rhs
  (lo tmp, hi tmp)
/-- `carrying_mul_add`, trifecta.rs 29-34. -/
def carryingMulAdd {n} (lhs mul add : BitVec n) : BitVec n × BitVec n :=
  let tmp := zeroWiden lhs * zeroWiden mul + zeroWiden add
  (lo tmp, hi tmp)

/-- The two possibility algorithm inside the loop, trifecta.rs 341-362 (`quo` is the quotient so
far). -/
def trifectaTwoLoop {q} (half : DivRem (2 * q)) (duo div quo : BitVec (2 * (2 * q))) (duoLz : Nat) :
    M (BitVec (2 * (2 * q)) × BitVec (2 * (2 * q))) := do
  let n := 2 * q
  let shift ← nsubC n duoLz
  let duoSigN := lo (← shrC duo shift)
  let divSigN := lo (← shrC div shift)
  let (quoPart, _) ← half duoSigN divSigN
  let divLo := lo div
  let divHi := hi div
  let (tmpLo, carry) := carryingMul quoPart divLo
  let (tmpHi, _) := carryingMulAdd quoPart divHi carry
  let th ← shlC (zeroWiden tmpHi) n
  let tmp := zeroWiden tmpLo ||| th
  if duo.toNat < tmp.toNat then
    let p ← subC quoPart 1#(2 * q)
    let quo ← addC quo (zeroWiden p)
    pure (quo, duo + div - tmp)
  else
    let quo ← addC quo (zeroWiden quoPart)
    let rem ← subC duo tmp
    pure (quo, rem)

/-- The undersubtracting loop, trifecta.rs 321-383. -/
def trifectaLoop {q} (half : DivRem (2 * q)) (div : BitVec (2 * (2 * q))) (divLz divExtra : Nat)
    (divSigAdd1 : BitVec (2 * q)) :
    (fuel : Nat) → (duo quo : BitVec (2 * (2 * q))) → (duoLz : Nat) →
    M (BitVec (2 * (2 * q)) × BitVec (2 * (2 * q)))
  | 0, _, _, _ => .error .fuel
  | fuel + 1, duo, quo, duoLz => do
    let n := 2 * q
    let duoExtra ← nsubC n duoLz
    let duoSigN := lo (← shrC duo duoExtra)
    if divExtra ≤ duoExtra then
      let (qp, _) ← half duoSigN divSigAdd1
      let quoPart := zeroWiden qp
      let extraShl ← nsubC duoExtra divExtra
      let quo ← addC quo (← shlC quoPart extraShl)
      let duo ← subC duo (← shlC (div * quoPart) extraShl)
      let duoLz := nlz duo
      if divLz ≤ duoLz then
        if div.toNat ≤ duo.toNat then
          let quo ← addC quo 1#(2 * (2 * q))
          let rem ← subC duo div
          pure (quo, rem)
        else pure (quo, duo)
      else if n ≤ duoLz then
        let (a, b) ← half (lo duo) (lo div)
        let quo ← addC quo (zeroWiden a)
        pure (quo, zeroWiden b)
      else trifectaLoop half div divLz divExtra divSigAdd1 fuel duo quo duoLz
    else trifectaTwoLoop half duo div quo duoLz

/-- `impl_trifecta`, trifecta.rs 18-384. -/
def trifecta {q} (half : DivRem (2 * q)) : DivRem (2 * (2 * q)) := fun duo div => do
  let n := 2 * q
  if div = 0#_ then
    .error .ub
  else
    let divLz := nlz div
    let duoLz := nlz duo
    if divLz ≤ duoLz then
      if div.toNat ≤ duo.toNat then
        let rem ← subC duo div
        pure (1#_, rem)
      else pure (0#_, duo)
    else if n ≤ duoLz then
      let (a, b) ← half (lo duo) (lo div)
      pure (zeroWiden a, zeroWiden b)
    else if n + q ≤ divLz then
      shortDiv half duo (hi duo) (zeroWiden (div.setWidth q))
    else
      let lzDiff ← nsubC divLz duoLz
      if lzDiff < q then
        let shift ← nsubC n duoLz
        let duoSigN := lo (← shrC duo shift)
        let divSigN := lo (← shrC div shift)
        let (quo, _) ← half duoSigN divSigN
        let divLo := lo div
        let divHi := hi div
        let (tmpLo, carry) := carryingMul quo divLo
        let (tmpHi, overflow) := carryingMulAdd quo divHi carry
        let th ← shlC (zeroWiden tmpHi) n
        let tmp := zeroWiden tmpLo ||| th
        if overflow ≠ 0#_ ∨ duo.toNat < tmp.toNat then
          let p ← subC quo 1#(2 * q)
          pure (zeroWiden p, duo + div - tmp)
        else
          let rem ← subC duo tmp
          pure (zeroWiden quo, rem)
      else
        let divExtra ← nsubC (n + q) divLz
        let divSigNH := (← shrC div divExtra).setWidth q
        let divSigAdd1 ← addC (zeroWiden divSigNH) 1#(2 * q)
        trifectaLoop half div divLz divExtra divSigAdd1 (duo.toNat + 1) duo 0#_ duoLz

end Verif
