import Verif.Int.DInt
/-!
# Models of `leading_zeros.rs`, `trailing_zeros.rs` and `bswap.rs`
(`compiler-builtins/src/int/`)

`usize`/`u32` counters are `Nat`s with checked subtraction.
-/
namespace Verif

/-- One bisection step of `leading_zeros_default` (leading_zeros.rs 35-39, 42-46, 49-63):
`t = x >> k; if t != 0 { z -= k; x = t }`. -/
def lzStep {w} (k : Nat) (x : BitVec w) (z : Nat) : M (BitVec w × Nat) := do
  let t ← shrC x k
  if t ≠ 0#w then
    let z ← nsubC z k
    pure (t, z)
  else pure (x, z)

/-- `leading_zeros_default`, leading_zeros.rs 16-83. The `const` assertions on `I::BITS` are
compile-time conditions, here run-time faults. -/
def leadingZerosDefault {w} (x : BitVec w) : M Nat := do
  let z := w
  assertC (w ≤ 64)
  let (x, z) ← (if w ≥ 64 then lzStep 32 x z else pure (x, z))
  let (x, z) ← (if w ≥ 32 then lzStep 16 x z else pure (x, z))
  assertC (w ≥ 16)
  let (x, z) ← lzStep 8 x z
  let (x, z) ← lzStep 4 x z
  let (x, z) ← lzStep 2 x z
  let t ← shrC x 1
  if t ≠ 0#w then nsubC z 2 else nsubC z x.toNat

/-- One step of `leading_zeros_condset` (leading_zeros.rs 115-121, 124-126, 129-140):
`t = ((x >= (1 << (1 << j))) as u32) << j; x >>= t; z -= t`. -/
def lzCondStep {w} (j : Nat) (x : BitVec w) (z : Nat) : M (BitVec w × Nat) := do
  let bound ← shlC 1#w (2 ^ j)
  let t := (if bound.toNat ≤ x.toNat then 1 else 0) <<< j
  let x ← shrC x t
  let z ← nsubC z t
  pure (x, z)

/-- `leading_zeros_condset`, leading_zeros.rs 93-144. -/
def leadingZerosCondset {w} (x : BitVec w) : M Nat := do
  let z := w
  assertC (w ≤ 64)
  let (x, z) ← (if w ≥ 64 then lzCondStep 5 x z else pure (x, z))
  let (x, z) ← (if w ≥ 32 then lzCondStep 4 x z else pure (x, z))
  assertC (w ≥ 16)
  let (x, z) ← lzCondStep 3 x z
  let (x, z) ← lzCondStep 2 x z
  let (x, z) ← lzCondStep 1 x z
  let (x, z) ← lzCondStep 0 x z
  nsubC z x.toNat

/-- `__clzsi2`, leading_zeros.rs 149-156; `condset` is the `cfg!` on the target architecture. -/
def clzsi2 (condset : Bool) (x : BitVec 32) : M Nat :=
  if condset then leadingZerosCondset x else leadingZerosDefault x
/-- `__clzdi2`, leading_zeros.rs 159-166. -/
def clzdi2 (condset : Bool) (x : BitVec 64) : M Nat :=
  if condset then leadingZerosCondset x else leadingZerosDefault x
/-- `__clzti2`, leading_zeros.rs 169-176. -/
def clzti2 (condset : Bool) (x : BitVec 128) : M Nat := do
  let s ← shrC x 64
  let hi := s.setWidth 64
  if hi = 0#64 then
    let r ← clzdi2 condset (x.setWidth 64)
    pure (64 + r)
  else clzdi2 condset hi

/-- The final part of `trailing_zeros` on the low byte, trailing_zeros.rs 38-50.
`(cond as u32) << j` is written `if cond then 2^j else 0`. Line 50 selects with the mask
`(((x & 1) == 0) as usize).wrapping_neg()`, which is all ones or zero. -/
def tzTail (x : BitVec 8) (r : Nat) : M Nat := do
  let t := if x &&& 0x0F#8 = 0#8 then 2 ^ 2 else 0
  let x ← shrC x t
  let r := r + t
  let t := if x &&& 0x3#8 = 0#8 then 2 ^ 1 else 0
  let x ← shrC x t
  let r := r + t
  let x := x &&& 3#8
  let m ← nsubC 2 (x >>> 1).toNat
  pure (r + if x &&& 1#8 = 0#8 then m else 0)

/-- A bisection step of `trailing_zeros` (trailing_zeros.rs 23-24, 28-30, 34-36):
`t = if the low k bits of x are zero { k } else { 0 }; x >>= t; r += t`. -/
def tzStep {w} (k : Nat) (x : BitVec w) (r : Nat) : M (BitVec w × Nat) := do
  let t := if x.setWidth k = 0#k then k else 0
  let x ← shrC x t
  pure (x, r + t)

/-- `trailing_zeros`, trailing_zeros.rs 11-51. -/
def trailingZeros {w} (x : BitVec w) : M Nat := do
  assertC (w ≤ 64)
  let (x, r) ← (if w ≥ 64 then tzStep 32 x 0 else pure (x, 0))
  let (x, r) ← (if w ≥ 32 then tzStep 16 x r else pure (x, r))
  assertC (w ≥ 16)
  let (x, r) ← tzStep 8 x r
  tzTail (x.setWidth 8) r

/-- `__ctzti2`, trailing_zeros.rs 66-73 (`__ctzsi2`, `__ctzdi2`, lines 56-63, are `trailingZeros`). -/
def ctzti2 (x : BitVec 128) : M Nat := do
  let lo := x.setWidth 64
  if lo = 0#64 then
    let s ← shrC x 64
    let r ← trailingZeros (s.setWidth 64)
    pure (64 + r)
  else trailingZeros lo

/-- `swap_bytes` on an integer of `n` bytes, used by `__bswapsi2`, `__bswapdi2`, `__bswapti2`
(bswap.rs 4-18). `swap_bytes` is a core primitive; it is modelled as the usual loop that moves
the lowest byte of the source to the lowest position of the accumulator. -/
def swapBytes {w : Nat} : (n : Nat) → (x acc : BitVec w) → BitVec w
  | 0, _, acc => acc
  | n + 1, x, acc => swapBytes n (x >>> 8) ((acc <<< 8) ||| (x &&& 0xFF#w))

/-- `__bswapsi2` (n = 4), `__bswapdi2` (n = 8), `__bswapti2` (n = 16), bswap.rs 4-18. -/
def bswap (n : Nat) (x : BitVec (8 * n)) : BitVec (8 * n) := swapBytes n x 0#_

end Verif
