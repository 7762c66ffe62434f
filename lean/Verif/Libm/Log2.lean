import Verif.Libm.Log
import Verif.Libm.Asin
/-!
# Model of `log2`, `log10`, `log2f` and `log10f`

libm/src/math/{log2,log10,log2f,log10f}.rs

The constants are given by the bit patterns in the comments of the source, which are those of the decimal numbers in it.
The polynomial and its constants are the same text as in `log` and `logf` (`Log.polyR`, `Log.F32.polyR`).
The treatment of special arguments and the reduction are the same text in both `f64` functions, and in both `f32` functions; they are modelled once,
with the computation from the reduced argument as a parameter.
-/
namespace Verif
namespace Log2
open Pio2 Log

/-- `hi` and `lo`, the sum of which is near `log(x)` for `x` in `[sqrt(2)/2, sqrt(2)]`; `r` is the polynomial, `cl` clears low bits.
log2.rs 79-93, log10.rs 82-97, log2f.rs 71-84, log10f.rs 74-87 -/
def hilo {F : Fmt} (N : FPU F) (one two half : BitVec F.w) (r cl : BitVec F.w → BitVec F.w) (x : BitVec F.w) : BitVec F.w × BitVec F.w :=
  let f := N.sub x one
  let hfsq := N.mul (N.mul half f) f
  let s := N.div f (N.add two f)
  let hi := cl (N.sub f hfsq)
  (hi, N.add (N.sub (N.sub f hi) hfsq) (N.mul s (N.add hfsq (r s))))

section
variable (N : FPU f64)

/-- reduction of `x` with exponent correction `k`, and the rest (`main`), log2.rs 73-77, log10.rs 76-80 -/
def reduce (main : D → Int → M D) (x : D) (k : Int) : M D := do
  let ui := x.toNat
  let hx ← u32C (ui >>> 32 + (0x3ff00000 - 0x3fe6a09e))
  let k ← i32C (k + ((hx >>> 20 : Nat) - 0x3ff))
  let hx ← u32C ((hx &&& 0x000fffff) + 0x3fe6a09e)
  main (BitVec.ofNat f64.w (hx <<< 32 ||| (ui &&& 0xffffffff))) k

/-- log2.rs 33-77, log10.rs 35-80, and the rest (`main`) -/
def skel (main : D → Int → M D) (x : D) : M D :=
  let ui := x.toNat
  let hx := ui >>> 32
  if hx < 0x00100000 ∨ hx >>> 31 ≠ 0 then
    if (ui <<< 1) % 2 ^ 64 = 0 then .ok (N.div mone (N.mul x x))
    else if hx >>> 31 ≠ 0 then .ok (N.div (N.sub x x) 0#f64.w)
    else reduce main (N.mul x x1p54) (-54)
  else if hx ≥ 0x7ff00000 then .ok x
  else if hx = 0x3ff00000 ∧ (ui <<< 32) % 2 ^ 64 = 0 then .ok 0#f64.w
  else reduce main x 0

/-- the final sums of `y` and `val_hi + val_lo`, log2.rs 100-104, log10.rs 111-115 -/
def spadd (y vh vl : D) : D :=
  let w := N.add y vh
  N.add (N.add vl (N.add (N.sub y w) vh)) w

/-- log2.rs 20-21 -/
def IVLN2HI : D := 0x3ff7154765200000#f64.w
def IVLN2LO : D := 0x3de705fc2eefa200#f64.w

/-- log2.rs 79-104 -/
def main2 (x : D) (k : Int) : M D := do
  let (hi, lo) := hilo N one two half (polyR N) Asin.clearLow x
  let vh := N.mul hi IVLN2HI
  let vl := N.add (N.mul (N.add lo hi) IVLN2LO) (N.mul lo IVLN2HI)
  let y ← ofI32 k
  pure (spadd N y vh vl)

/-- `log2`, log2.rs 32-105 -/
def log2 (x : D) : M D := skel N (main2 N) x

/-- log10.rs 20-23 -/
def IVLN10HI : D := 0x3fdbcb7b15200000#f64.w
def IVLN10LO : D := 0x3dbb9438ca9aadd5#f64.w
def LOG10_2HI : D := 0x3FD34413509F6000#f64.w
def LOG10_2LO : D := 0x3D59FEF311F12B36#f64.w

/-- log10.rs 82-115 -/
def main10 (x : D) (k : Int) : M D := do
  let (hi, lo) := hilo N one two half (polyR N) Asin.clearLow x
  let vh := N.mul hi IVLN10HI
  let dk ← ofI32 k
  let y := N.mul dk LOG10_2HI
  let vl := N.add (N.add (N.mul dk LOG10_2LO) (N.mul (N.add lo hi) IVLN10LO)) (N.mul lo IVLN10HI)
  pure (spadd N y vh vl)

/-- `log10`, log10.rs 34-116 -/
def log10 (x : D) : M D := skel N (main10 N) x
end

namespace F32
open Exp.F32 (S)
open Log.F32

section
variable (N : FPU f32)

/-- reduction of `x` with exponent correction `k`, and the rest (`main`), log2f.rs 65-69, log10f.rs 68-72 -/
def reduce (main : S → Int → M S) (x : S) (k : Int) : M S := do
  let ix ← u32C (x.toNat + (0x3f800000 - 0x3f3504f3))
  let k ← i32C (k + ((ix >>> 23 : Nat) - 0x7f))
  let ix ← u32C ((ix &&& 0x007fffff) + 0x3f3504f3)
  main (BitVec.ofNat f32.w ix) k

/-- log2f.rs 27-69, log10f.rs 29-72, and the rest (`main`) -/
def skel (main : S → Int → M S) (x : S) : M S :=
  let ix := x.toNat
  if ix < 0x00800000 ∨ ix >>> 31 ≠ 0 then
    if (ix <<< 1) % 2 ^ 32 = 0 then .ok (N.div mone (N.mul x x))
    else if ix >>> 31 ≠ 0 then .ok (N.div (N.sub x x) 0#f32.w)
    else reduce main (N.mul x x1p25) (-25)
  else if ix ≥ 0x7f800000 then .ok x
  else if ix = 0x3f800000 then .ok 0#f32.w
  else reduce main x 0

/-- log2f.rs 16-17 -/
def IVLN2HI : S := 0x3fb8b000#f32.w
def IVLN2LO : S := 0xb9389ad4#f32.w

/-- log2f.rs 71-85 -/
def main2 (x : S) (k : Int) : M S := do
  let (hi, lo) := hilo N one two half (polyR N) Asin.F32.clearLow x
  let y ← Exp.F32.ofI32 k
  pure (N.add (N.add (N.add (N.mul (N.add lo hi) IVLN2LO) (N.mul lo IVLN2HI)) (N.mul hi IVLN2HI)) y)

/-- `log2f`, log2f.rs 26-86 -/
def log2f (x : S) : M S := skel N (main2 N) x

/-- log10f.rs 16-19 -/
def IVLN10HI : S := 0x3ede6000#f32.w
def IVLN10LO : S := 0xb804ead9#f32.w
def LOG10_2HI : S := 0x3e9a2080#f32.w
def LOG10_2LO : S := 0x355427db#f32.w

/-- log10f.rs 74-89 -/
def main10 (x : S) (k : Int) : M S := do
  let (hi, lo) := hilo N one two half (polyR N) Asin.F32.clearLow x
  let dk ← Exp.F32.ofI32 k
  pure (N.add (N.add (N.add (N.add (N.mul dk LOG10_2LO) (N.mul (N.add lo hi) IVLN10LO)) (N.mul lo IVLN10HI)) (N.mul hi IVLN10HI)) (N.mul dk LOG10_2HI))

/-- `log10f`, log10f.rs 28-90 -/
def log10f (x : S) : M S := skel N (main10 N) x
end
end F32
end Log2
end Verif
