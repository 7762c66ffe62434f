import Verif.Libm.RemPio2Top
/-!
# Model of `sin`, `cos`, `sincos` and of their single-precision versions

libm/src/math/{k_sin,k_cos,sin,cos,sincos,k_sinf,k_cosf,sinf,cosf,sincosf}.rs

The constants are given by their bit patterns, the ones in the comments of the source (the decimal literals denote the same numbers).
`force_eval!` (sin.rs 59-63, sincos.rs 32-37, sinf.rs 45-49, cosf.rs 45, sincosf.rs 46-51) only raises floating-point exceptions; it is left out.
-/
namespace Verif
namespace Trig
open Pio2

/-- `S1`-`S6`, k_sin.rs 12-17 -/
def S1 : D := 0xBFC5555555555549#f64.w
def S2 : D := 0x3F8111111110F8A6#f64.w
def S3 : D := 0xBF2A01A019C161D5#f64.w
def S4 : D := 0x3EC71DE357B1FE7D#f64.w
def S5 : D := 0xBE5AE5E68A2B9CEB#f64.w
def S6 : D := 0x3DE5D93A5ACFD57C#f64.w
/-- `C1`-`C6`, k_cos.rs 12-17 -/
def C1 : D := 0x3FA555555555554C#f64.w
def C2 : D := 0xBF56C16C16C15177#f64.w
def C3 : D := 0x3EFA01A019CB1590#f64.w
def C4 : D := 0xBE927E4F809C52AD#f64.w
def C5 : D := 0x3E21EE9EBDB4B1C4#f64.w
def C6 : D := 0xBDA8FAE9BE8838D4#f64.w
/-- `S1`-`S4`, k_sinf.rs 18-21 -/
def S1f : D := 0xBFC5555554CBAC77#f64.w
def S2f : D := 0x3F811110896EFBB2#f64.w
def S3f : D := 0xBF2A00F9E2CAE774#f64.w
def S4f : D := 0x3EC6CD878C3B46A7#f64.w
/-- `C0`-`C3`, k_cosf.rs 18-21 -/
def C0f : D := 0xBFDFFFFFFD0C5E81#f64.w
def C1f : D := 0x3FA55553E1053A42#f64.w
def C2f : D := 0xBF56C087E80F1E27#f64.w
def C3f : D := 0x3EF99342E0EE5069#f64.w
/-- `S1_PIO2`-`S4_PIO2`, sinf.rs 22-25, cosf.rs 22-25, sincosf.rs 21-24: constants computed at compile time -/
def P1o2 : D := 0x3FF921FB54442D18#f64.w
def P2o2 : D := 0x400921FB54442D18#f64.w
def P3o2 : D := 0x4012D97C7F3321D2#f64.w
def P4o2 : D := 0x401921FB54442D18#f64.w

/-- `n & 3` for an `i32` -/
def low2 (n : Int) : Nat := (BitVec.ofInt 32 n &&& 3#32).toNat

section
variable (N : FPU f64) (p64 : Bool)

/-- `k_sin`, k_sin.rs 47-57 -/
def kSin (x y : D) (iy : Int) : D :=
  let z := N.mul x x
  let w := N.mul z z
  let r := N.add (N.add S2 (N.mul z (N.add S3 (N.mul z S4)))) (N.mul (N.mul z w) (N.add S5 (N.mul z S6)))
  let v := N.mul z x
  if iy = 0 then N.add x (N.mul v (N.add S1 (N.mul z r)))
  else N.sub x (N.sub (N.sub (N.mul z (N.sub (N.mul chalf y) (N.mul v r))) y) (N.mul v S1))

/-- `k_cos`, k_cos.rs 55-62 -/
def kCos (x y : D) : D :=
  let z := N.mul x x
  let w := N.mul z z
  let r := N.add (N.mul z (N.add C1 (N.mul z (N.add C2 (N.mul z C3)))))
    (N.mul (N.mul w w) (N.add C4 (N.mul z (N.add C5 (N.mul z C6)))))
  let hz := N.mul chalf z
  let w := N.sub cone hz
  N.add w (N.add (N.sub (N.sub cone w) hz) (N.sub (N.mul z r) (N.mul x y)))

/-- `sin`, sin.rs 48-82 -/
def sin (x : D) : M D := do
  let ix := (x.toNat >>> 32) &&& 0x7fffffff
  if ix ≤ 0x3fe921fb then
    if ix < 0x3e500000 then pure x
    else pure (kSin N x 0#f64.w 0)
  else if ix ≥ 0x7ff00000 then pure (N.sub x x)
  else do
    let (n, y0, y1) ← remPio2 N p64 x
    match low2 n with
    | 0 => pure (kSin N y0 y1 1)
    | 1 => pure (kCos N y0 y1)
    | 2 => pure (f64.neg (kSin N y0 y1 1))
    | _ => pure (f64.neg (kCos N y0 y1))

/-- `cos`, cos.rs 49-77 -/
def cos (x : D) : M D := do
  let ix := (x.toNat >>> 32) &&& 0x7fffffff
  if ix ≤ 0x3fe921fb then
    if ix < 0x3e46a09e then do
      let k ← toI32 x
      if k = 0 then pure cone else pure (kCos N x 0#f64.w)
    else pure (kCos N x 0#f64.w)
  else if ix ≥ 0x7ff00000 then pure (N.sub x x)
  else do
    let (n, y0, y1) ← remPio2 N p64 x
    match low2 n with
    | 0 => pure (kCos N y0 y1)
    | 1 => pure (f64.neg (kSin N y0 y1 1))
    | 2 => pure (f64.neg (kCos N y0 y1))
    | _ => pure (kSin N y0 y1 1)

/-- `sincos`, sincos.rs 19-63 -/
def sincos (x : D) : M (D × D) := do
  let ix := (x.toNat >>> 32) &&& 0x7fffffff
  if ix ≤ 0x3fe921fb then
    if ix < 0x3e46a09e then pure (x, cone)
    else pure (kSin N x 0#f64.w 0, kCos N x 0#f64.w)
  else if ix ≥ 0x7ff00000 then
    let rv := N.sub x x
    pure (rv, rv)
  else do
    let (n, y0, y1) ← remPio2 N p64 x
    let s := kSin N y0 y1 1
    let c := kCos N y0 y1
    match low2 n with
    | 0 => pure (s, c)
    | 1 => pure (c, f64.neg s)
    | 2 => pure (f64.neg s, f64.neg c)
    | 3 => pure (f64.neg c, s)
    | _ => .error .assert

/-- the `f64` part of `k_sinf`, k_sinf.rs 25-29 -/
def kSinD (x : D) : D :=
  let z := N.mul x x
  let w := N.mul z z
  let r := N.add S3f (N.mul z S4f)
  let s := N.mul z x
  N.add (N.add x (N.mul s (N.add S1f (N.mul z S2f)))) (N.mul (N.mul s w) r)

/-- the `f64` part of `k_cosf`, k_cosf.rs 25-28 -/
def kCosD (x : D) : D :=
  let z := N.mul x x
  let w := N.mul z z
  let r := N.add C2f (N.mul z C3f)
  N.add (N.add (N.add cone (N.mul z C0f)) (N.mul w C1f)) (N.mul (N.mul w z) r)

/-- `k_sinf`, k_sinf.rs 24-30 -/
def kSinf (x : D) : M (BitVec f32.w) := Fmt.trunc f64 f32 (kSinD N x)
/-- `k_cosf`, k_cosf.rs 24-29 -/
def kCosf (x : D) : M (BitVec f32.w) := Fmt.trunc f64 f32 (kCosD N x)

/-- `-k_cosf(x)` and the like -/
def negM (m : M (BitVec f32.w)) : M (BitVec f32.w) := do
  let r ← m
  pure (f32.neg r)

variable (N32 : FPU f32)

/-- `sinf`, sinf.rs 31-96 -/
def sinf (x : BitVec f32.w) : M (BitVec f32.w) := do
  let x64 ← Fmt.extend f32 f64 x
  let sign := decide (x >>> 31 ≠ 0#f32.w)
  let ix := (x &&& 0x7fffffff#f32.w).toNat
  if ix ≤ 0x3f490fda then
    if ix < 0x39800000 then pure x else kSinf N x64
  else if ix ≤ 0x407b53d1 then
    if ix ≤ 0x4016cbe3 then
      if sign then negM (kCosf N (N.add x64 P1o2)) else kCosf N (N.sub x64 P1o2)
    else kSinf N (if sign then f64.neg (N.add x64 P2o2) else f64.neg (N.sub x64 P2o2))
  else if ix ≤ 0x40e231d5 then
    if ix ≤ 0x40afeddf then
      if sign then kCosf N (N.add x64 P3o2) else negM (kCosf N (N.sub x64 P3o2))
    else kSinf N (if sign then N.add x64 P4o2 else N.sub x64 P4o2)
  else if ix ≥ 0x7f800000 then pure (N32.sub x x)
  else do
    let (n, y) ← remPio2f N p64 x
    match low2 n with
    | 0 => kSinf N y
    | 1 => kCosf N y
    | 2 => kSinf N (f64.neg y)
    | _ => negM (kCosf N y)

/-- `cosf`, cosf.rs 31-86 -/
def cosf (x : BitVec f32.w) : M (BitVec f32.w) := do
  let x64 ← Fmt.extend f32 f64 x
  let sign := decide (x >>> 31 ≠ 0#f32.w)
  let ix := (x &&& 0x7fffffff#f32.w).toNat
  if ix ≤ 0x3f490fda then
    if ix < 0x39800000 then pure 0x3f800000#f32.w else kCosf N x64
  else if ix ≤ 0x407b53d1 then
    if ix > 0x4016cbe3 then negM (kCosf N (if sign then N.add x64 P2o2 else N.sub x64 P2o2))
    else if sign then kSinf N (N.add x64 P1o2)
    else kSinf N (N.sub P1o2 x64)
  else if ix ≤ 0x40e231d5 then
    if ix > 0x40afeddf then kCosf N (if sign then N.add x64 P4o2 else N.sub x64 P4o2)
    else if sign then kSinf N (N.sub (f64.neg x64) P3o2)
    else kSinf N (N.sub x64 P3o2)
  else if ix ≥ 0x7f800000 then pure (N32.sub x x)
  else do
    let (n, y) ← remPio2f N p64 x
    match low2 n with
    | 0 => kCosf N y
    | 1 => kSinf N (f64.neg y)
    | 2 => negM (kCosf N y)
    | _ => kSinf N y

/-- a pair of results -/
def pairM (s c : M (BitVec f32.w)) : M (BitVec f32.w × BitVec f32.w) := do
  let s ← s
  let c ← c
  pure (s, c)

/-- `sincosf`, sincosf.rs 30-123 -/
def sincosf (x : BitVec f32.w) : M (BitVec f32.w × BitVec f32.w) := do
  let x64 ← Fmt.extend f32 f64 x
  let sign := decide (x >>> 31 ≠ 0#f32.w)
  let ix := (x &&& 0x7fffffff#f32.w).toNat
  if ix ≤ 0x3f490fda then
    if ix < 0x39800000 then pure (x, 0x3f800000#f32.w) else pairM (kSinf N x64) (kCosf N x64)
  else if ix ≤ 0x407b53d1 then
    if ix ≤ 0x4016cbe3 then
      if sign then pairM (negM (kCosf N (N.add x64 P1o2))) (kSinf N (N.add x64 P1o2))
      else pairM (kCosf N (N.sub P1o2 x64)) (kSinf N (N.sub P1o2 x64))
    else if sign then pairM (negM (kSinf N (N.add x64 P2o2))) (negM (kCosf N (N.add x64 P2o2)))
    else pairM (negM (kSinf N (N.sub x64 P2o2))) (negM (kCosf N (N.sub x64 P2o2)))
  else if ix ≤ 0x40e231d5 then
    if ix ≤ 0x40afeddf then
      if sign then pairM (kCosf N (N.add x64 P3o2)) (negM (kSinf N (N.add x64 P3o2)))
      else pairM (negM (kCosf N (N.sub x64 P3o2))) (kSinf N (N.sub x64 P3o2))
    else if sign then pairM (kSinf N (N.add x64 P4o2)) (kCosf N (N.add x64 P4o2))
    else pairM (kSinf N (N.sub x64 P4o2)) (kCosf N (N.sub x64 P4o2))
  else if ix ≥ 0x7f800000 then
    let rv := N32.sub x x
    pure (rv, rv)
  else do
    let (n, y) ← remPio2f N p64 x
    let s ← kSinf N y
    let c ← kCosf N y
    match low2 n with
    | 0 => pure (s, c)
    | 1 => pure (c, f32.neg s)
    | 2 => pure (f32.neg s, f32.neg c)
    | 3 => pure (f32.neg c, s)
    | _ => .error .assert

end
end Trig
end Verif
