import Verif.Libm.RemPio2
import Verif.Float.ExtTrunc
/-!
# Model of `rem_pio2` and `rem_pio2f` (libm/src/math/{rem_pio2,rem_pio2f}.rs)

`force_eval!` (rem_pio2.rs 57, rem_pio2f.rs 48) is compiled only on x86 without SSE2, whose `f64` operations are not correctly rounded;
that target is not modelled. Products of constants such as `2.0 * PIO2_1` are computed with the native operations.
-/
namespace Verif
namespace Pio2

/-- `TO_INT`, rem_pio2.rs 24 (`TOINT`, rem_pio2f.rs 19): `1.5 / 2^-52` -/
def TO_INT : D := 0x4338000000000000#f64.w
/-- `INV_PIO2`, rem_pio2.rs 26, rem_pio2f.rs 22 -/
def INV_PIO2 : D := 0x3FE45F306DC9C883#f64.w
/-- `PIO2_1`, rem_pio2.rs 28 -/
def PIO2_1 : D := 0x3FF921FB54400000#f64.w
/-- `PIO2_1T`, rem_pio2.rs 30 -/
def PIO2_1T : D := 0x3DD0B4611A626331#f64.w
/-- `PIO2_2`, rem_pio2.rs 32 -/
def PIO2_2 : D := 0x3DD0B4611A600000#f64.w
/-- `PIO2_2T`, rem_pio2.rs 34 -/
def PIO2_2T : D := 0x3BA3198A2E037073#f64.w
/-- `PIO2_3`, rem_pio2.rs 36 -/
def PIO2_3 : D := 0x3BA3198A2E000000#f64.w
/-- `PIO2_3T`, rem_pio2.rs 38 -/
def PIO2_3T : D := 0x397B839A252049C1#f64.w
/-- `PIO2_1`, rem_pio2f.rs 24 -/
def PIO2_1F : D := 0x3FF921FB50000000#f64.w
/-- `PIO2_1T`, rem_pio2f.rs 26 -/
def PIO2_1TF : D := 0x3E5110B4611A6263#f64.w

/-- `(f64::to_bits(y) >> 52) as i32 & 0x7ff`, rem_pio2.rs 63-64, 73 -/
def expo (y : D) : Int := ((y.toNat >>> 52) &&& 0x7ff : Nat)

section
variable (N : FPU f64) (p64 : Bool)

/-- rem_pio2.rs 68-71 and 76-79: a further round of `medium`: `t` and the two parts of the constant give `r` and `w` -/
def cwRound (fn t p pt : D) : D × D :=
  let w := N.mul fn p
  let r := N.sub t w
  (r, N.sub (N.mul fn pt) (N.sub (N.sub t r) w))

/-- rem_pio2.rs 61-82: the rounds of `medium`; `r`, `w`, `y0` are returned -/
def medRounds (fn r : D) (ex : Int) : M (D × D × D) := do
  let w := N.mul fn PIO2_1T
  let y0 := N.sub r w
  let d ← i32C (ex - expo y0)
  if d > 16 then do
    let s := cwRound N fn r PIO2_2 PIO2_2T
    let y0 := N.sub s.1 s.2
    let d ← i32C (ex - expo y0)
    if d > 49 then do
      let s := cwRound N fn s.1 PIO2_3 PIO2_3T
      pure (s.1, s.2, N.sub s.1 s.2)
    else pure (s.1, s.2, y0)
  else pure (r, w, y0)

/-- `x * INV_PIO2` rounded to an integer, rem_pio2.rs 53-58, rem_pio2f.rs 44-49 -/
def nearest (x : D) : D :=
  let tmp := N.add (N.mul x INV_PIO2) TO_INT
  N.sub tmp TO_INT

/-- `medium`, rem_pio2.rs 51-85 -/
def medium (x : D) (ix : Nat) : M (Int × D × D) := do
  let fn := nearest N x
  let n ← toI32 fn
  let (r, w, y0) ← medRounds N fn (N.sub x (N.mul fn PIO2_1)) (ix >>> 20 : Nat)
  let y1 := N.sub (N.sub r y0) w
  pure (n, y0, y1)

/-- rem_pio2.rs 95-105, 106-116, 126-136, 142-152: subtract (or add, for negative `x`) the constants `p` and `pt` -/
def oneRound (sign : Bool) (k : Int) (x p pt : D) : Int × D × D :=
  if sign then
    let z := N.add x p
    let y0 := N.add z pt
    (-k, y0, N.add (N.sub z y0) pt)
  else
    let z := N.sub x p
    let y0 := N.sub z pt
    (k, y0, N.sub (N.sub z y0) pt)

/-- the constants `2.0`, `3.0`, `4.0` -/
def c2 : D := 0x4000000000000000#f64.w
def c3 : D := 0x4008000000000000#f64.w
def c4 : D := 0x4010000000000000#f64.w

/-- rem_pio2.rs 169-178: `tx`; the loop has two iterations -/
def splitX (x : D) : M (Nat → D) := do
  let ui := x &&& (0xfffffffffffffffe#f64.w >>> 12)
  let ui := ui ||| (0x416#f64.w <<< 52)
  let (z, tx) ← forUp (fun i (s : D × (Nat → D)) => do
    let (z, tx) := s
    let k ← toI32 z
    let d ← ofI32 k
    let tx ← wr 3 tx i d
    let v ← rd 3 tx i
    pure (N.mul (N.sub z v) x1p24, tx)) 2 0 (ui, fun _ => 0#f64.w)
  wr 3 tx 2 z

/-- rem_pio2.rs 180-183: skip zero terms -/
def skipZ (tx : Nat → D) : Nat → M Nat
  | 0 => pure 0
  | i + 1 => do
    let v ← rd 3 tx (i + 1)
    if f64.feq v 0#f64.w then skipZ tx i else pure (i + 1)

/-- rem_pio2.rs 168-189: large finite arguments -/
def remLarge (x : D) (sign : Bool) (ix : Nat) : M (Int × D × D) := do
  let tx ← splitX N x
  let i ← skipZ tx 2
  let e0 ← i32C (((ix >>> 20 : Nat) : Int) - (0x3ff + 23))
  let (n, ty) ← remPio2Large N p64 (i + 1) tx 3 e0 1
  let y0 ← rd 3 ty 0
  let y1 ← rd 3 ty 1
  if sign then do
    let n ← i32C (-n)
    pure (n, f64.neg y0, f64.neg y1)
  else pure (n, y0, y1)

/-- `rem_pio2`, rem_pio2.rs 45-190 -/
def remPio2 (x : D) : M (Int × D × D) :=
  let sign := x.msb
  let ix := (x.toNat >>> 32) &&& 0x7fffffff
  if ix ≤ 0x400f6a7a then
    if ix &&& 0xfffff = 0x921fb then medium N x ix
    else if ix ≤ 0x4002d97c then pure (oneRound N sign 1 x PIO2_1 PIO2_1T)
    else pure (oneRound N sign 2 x (N.mul c2 PIO2_1) (N.mul c2 PIO2_1T))
  else if ix ≤ 0x401c463b then
    if ix ≤ 0x4015fdbc then
      if ix = 0x4012d97c then medium N x ix
      else pure (oneRound N sign 3 x (N.mul c3 PIO2_1) (N.mul c3 PIO2_1T))
    else if ix = 0x401921fb then medium N x ix
    else pure (oneRound N sign 4 x (N.mul c4 PIO2_1) (N.mul c4 PIO2_1T))
  else if ix < 0x413921fb then medium N x ix
  else if ix ≥ 0x7ff00000 then
    let y0 := N.sub x x
    pure (0, y0, y0)
  else remLarge N p64 x sign ix

/-- rem_pio2f.rs 44-50: medium size -/
def mediumF (x : D) : M (Int × D) := do
  let fn := nearest N x
  let n ← toI32 fn
  pure (n, N.sub (N.sub x (N.mul fn PIO2_1F)) (N.mul fn PIO2_1TF))

/-- `rem_pio2f`, rem_pio2f.rs 33-65 -/
def remPio2f (x : BitVec f32.w) : M (Int × D) := do
  let x64 ← Fmt.extend f32 f64 x
  let ix := x &&& 0x7fffffff#f32.w
  if ix.toNat < 0x4dc90fdb then mediumF N x64
  else if ix.toNat ≥ 0x7f800000 then pure (0, N.sub x64 x64)
  else do
    let sign := decide (x >>> 31 ≠ 0#f32.w)
    let e0 ← subC (ix >>> 23) (0x7f + 23 : BitVec f32.w)
    let e0 : Int := e0.toInt
    let t ← salI e0 23
    let b ← subC ix (BitVec.ofInt f32.w t)
    let v ← Fmt.extend f32 f64 b
    let tx ← wr 1 (fun _ => 0#f64.w) 0 v
    let (n, ty) ← remPio2Large N p64 1 tx 1 e0 0
    let y ← rd 1 ty 0
    if sign then do
      let n ← i32C (-n)
      pure (n, f64.neg y)
    else pure (n, y)

end
end Pio2
end Verif
