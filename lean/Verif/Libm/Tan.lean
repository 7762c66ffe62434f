import Verif.Libm.Trig
/-!
# Model of `tan` and `tanf`

libm/src/math/{k_tan,tan,k_tanf,tanf}.rs

The constants of `k_tan.rs` are given by the bit patterns in the comments of the source; those of `k_tanf.rs` by the integers in its comments.
`force_eval!` (tan.rs 55-59, tanf.rs 45-49) only raises floating-point exceptions; it is left out.
-/
namespace Verif
namespace Trig
open Pio2

/-- `T`, k_tan.rs 43-57 -/
def T0 : D := 0x3FD5555555555563#f64.w
def T1 : D := 0x3FC111111110FE7A#f64.w
def T2 : D := 0x3FABA1BA1BB341FE#f64.w
def T3 : D := 0x3F9664F48406D637#f64.w
def T4 : D := 0x3F8226E3E96E8493#f64.w
def T5 : D := 0x3F6D6D22C9560328#f64.w
def T6 : D := 0x3F57DBC8FEE08315#f64.w
def T7 : D := 0x3F4344D8F2F26501#f64.w
def T8 : D := 0x3F3026F71A8D1068#f64.w
def T9 : D := 0x3F147E88A03792A6#f64.w
def T10 : D := 0x3F12B80F32F0A7E9#f64.w
def T11 : D := 0xBEF375CBDB605373#f64.w
def T12 : D := 0x3EFB2A7074BF7AD4#f64.w
/-- `PIO4`, `PIO4_LO`, k_tan.rs 58-59 -/
def PIO4 : D := 0x3FE921FB54442D18#f64.w
def PIO4_LO : D := 0x3C81A62633145C07#f64.w
/-- `T`, k_tanf.rs 12-19 -/
def T0f : D := 0x3FD5554D3418C99F#f64.w
def T1f : D := 0x3FC112FD38999F72#f64.w
def T2f : D := 0x3FAB54C91D865AFE#f64.w
def T3f : D := 0x3F991DF3908C33CE#f64.w
def T4f : D := 0x3F685DADFCECF44E#f64.w
def T5f : D := 0x3F8362B9BF971BCD#f64.w

/-- `1.0`, `-1.0`, `2.0` -/
def cmone : D := 0xBFF0000000000000#f64.w
def ctwo : D := 0x4000000000000000#f64.w

section
variable (N : FPU f64) (p64 : Bool)

/-- `zero_low_word`, k_tan.rs 103-105 -/
def zeroLow (x : D) : D := x &&& 0xFFFFFFFF00000000#f64.w

/-- the tail `r` of the polynomial, k_tan.rs 75-87 -/
def tanR (x y : D) : D :=
  let z := N.mul x x
  let w := N.mul z z
  let r := N.add T1 (N.mul w (N.add T3 (N.mul w (N.add T5 (N.mul w (N.add T7 (N.mul w (N.add T9 (N.mul w T11)))))))))
  let v := N.mul z (N.add T2 (N.mul w (N.add T4 (N.mul w (N.add T6 (N.mul w (N.add T8 (N.mul w (N.add T10 (N.mul w T12))))))))))
  let s := N.mul z x
  N.add (N.add y (N.mul z (N.add (N.mul s (N.add r v)) y))) (N.mul s T0)

/-- `k_tan`, k_tan.rs 62-101; `odd` is `0` or `1`, and `1.0 - 2.0 * odd` is computed exactly -/
def kTan (x y : D) (odd : Bool) : D :=
  let hx := x.toNat >>> 32
  if hx &&& 0x7fffffff ≥ 0x3FE59428 then
    let sign := decide (hx >>> 31 ≠ 0)
    let x1 := if sign then f64.neg x else x
    let y1 := if sign then f64.neg y else y
    let x := N.add (N.sub PIO4 x1) (N.sub PIO4_LO y1)
    let r := tanR N x 0#f64.w
    let w := N.add x r
    let s := if odd then cmone else cone
    let v := N.sub s (N.mul ctwo (N.add x (N.sub r (N.div (N.mul w w) (N.add w s)))))
    if sign then f64.neg v else v
  else
    let r := tanR N x y
    let w := N.add x r
    if !odd then w
    else
      let w0 := zeroLow w
      let v := N.sub r (N.sub w0 x)
      let a := N.div cmone w
      let a0 := zeroLow a
      N.add a0 (N.mul a (N.add (N.add cone (N.mul a0 w0)) (N.mul a0 v)))

/-- `n & 1` for an `i32` -/
def low1 (n : Int) : Bool := (BitVec.ofInt 32 n &&& 1#32).toNat != 0

/-- `tan`, tan.rs 47-74 -/
def tan (x : D) : M D := do
  let ix := (x.toNat >>> 32) &&& 0x7fffffff
  if ix ≤ 0x3fe921fb then
    if ix < 0x3e400000 then pure x
    else pure (kTan N x 0#f64.w false)
  else if ix ≥ 0x7ff00000 then pure (N.sub x x)
  else do
    let (n, y0, y1) ← remPio2 N p64 x
    pure (kTan N y0 y1 (low1 n))

/-- the `f64` polynomial of `k_tanf`, k_tanf.rs 24-44 -/
def kTanD (x : D) : D :=
  let z := N.mul x x
  let r := N.add T4f (N.mul z T5f)
  let t := N.add T2f (N.mul z T3f)
  let w := N.mul z z
  let s := N.mul z x
  let u := N.add T0f (N.mul z T1f)
  N.add (N.add x (N.mul s u)) (N.mul (N.mul s w) (N.add t (N.mul w r)))

/-- `k_tanf`, k_tanf.rs 23-46 -/
def kTanf (x : D) (odd : Bool) : M (BitVec f32.w) :=
  let r := kTanD N x
  Fmt.trunc f64 f32 (if odd then N.div cmone r else r)

variable (N32 : FPU f32)

/-- `tanf`, tanf.rs 31-81 -/
def tanf (x : BitVec f32.w) : M (BitVec f32.w) := do
  let x64 ← Fmt.extend f32 f64 x
  let sign := decide (x >>> 31 ≠ 0#f32.w)
  let ix := (x &&& 0x7fffffff#f32.w).toNat
  if ix ≤ 0x3f490fda then
    if ix < 0x39800000 then pure x else kTanf N x64 false
  else if ix ≤ 0x407b53d1 then
    if ix ≤ 0x4016cbe3 then kTanf N (if sign then N.add x64 P1o2 else N.sub x64 P1o2) true
    else kTanf N (if sign then N.add x64 P2o2 else N.sub x64 P2o2) false
  else if ix ≤ 0x40e231d5 then
    if ix ≤ 0x40afeddf then kTanf N (if sign then N.add x64 P3o2 else N.sub x64 P3o2) true
    else kTanf N (if sign then N.add x64 P4o2 else N.sub x64 P4o2) false
  else if ix ≥ 0x7f800000 then pure (N32.sub x x)
  else do
    let (n, y) ← remPio2f N p64 x
    kTanf N y (low1 n)

end
end Trig
end Verif
