import Verif.Libm.Sqrt
import Verif.Libm.Native
import Verif.Libm.RoundInt
import Verif.Libm.FmaWide
import Verif.Libm.RemPio2
/-!
# Model of `asin`, `acos`, `asinf` and `acosf`

libm/src/math/{asin,acos,asinf,acosf}.rs

The constants are given by the bit patterns in the comments of the source, or by those of the decimal numbers in it. asin.rs and acos.rs have each a copy of
the constants and of the function `comp_r`/`r`, and so have asinf.rs and acosf.rs; there is one copy here. `sqrt` is the generic implementation
(the model of `sqrt_round`; instructions of some targets are not modelled).
-/
namespace Verif
namespace Asin
open Pio2

/-- `PIO2_HI`, `PIO2_LO`, asin.rs 44-45, acos.rs 38-39 -/
def HI : D := 0x3FF921FB54442D18#f64.w
def LO : D := 0x3C91A62633145C07#f64.w
/-- `P_S0` … `P_S5`, `Q_S1` … `Q_S4`, asin.rs 47-56, acos.rs 40-49 -/
def P0 : D := 0x3FC5555555555555#f64.w
def P1 : D := 0xBFD4D61203EB6F7D#f64.w
def P2 : D := 0x3FC9C1550E884455#f64.w
def P3 : D := 0xBFA48228B5688F3B#f64.w
def P4 : D := 0x3F49EFE07501B288#f64.w
def P5 : D := 0x3F023DE10DFDF709#f64.w
def Q1 : D := 0xC0033A271C8A2D4B#f64.w
def Q2 : D := 0x40002AE59C598AC8#f64.w
def Q3 : D := 0xBFE6066C1B8D0159#f64.w
def Q4 : D := 0x3FB3B8C5B12E9282#f64.w
/-- `0.`, `0.5`, `1.`, `2.` -/
def zero : D := 0x0000000000000000#f64.w
def half : D := 0x3FE0000000000000#f64.w
def one : D := 0x3FF0000000000000#f64.w
def two : D := 0x4000000000000000#f64.w
/-- `2^-120`, asin.rs 85, acos.rs 64 -/
def tiny : D := 0x3870000000000000#f64.w

section
variable (N : FPU f64)

/-- `comp_r`, asin.rs 58-62; `r`, acos.rs 51-55 -/
def compR (z : D) : D :=
  let p := N.mul z (N.add P0 (N.mul z (N.add P1 (N.mul z (N.add P2 (N.mul z (N.add P3 (N.mul z (N.add P4 (N.mul z P5))))))))))
  let q := N.add one (N.mul z (N.add Q1 (N.mul z (N.add Q2 (N.mul z (N.add Q3 (N.mul z Q4)))))))
  N.div p q

/-- `sqrt`, libm/src/math/sqrt.rs -/
def sqrtD (z : D) : M D := do
  let (r, _) ← f64.sqrtRound N SqrtCfg.f64 z
  pure r

/-- `with_set_low_word(s, 0)`, asin.rs 110; `s` with the low 4 bytes set to zero, acos.rs 107 -/
def clearLow (s : D) : D := s &&& 0xFFFFFFFF00000000#f64.w

/-- the arcsine of `|x|` of at least 0.5, from `z` and `s` its square root, asin.rs 103-113 -/
def asinBig (ix : Nat) (z s : D) : D :=
  let r := compR N z
  if ix ≥ 0x3fef3333 then N.sub HI (N.sub (N.mul two (N.add s (N.mul s r))) LO)
  else
    let f := clearLow s
    let c := N.div (N.sub z (N.mul f f)) (N.add s f)
    N.sub (N.mul half HI)
      (N.sub (N.sub (N.mul (N.mul two s) r) (N.sub LO (N.mul two c))) (N.sub (N.mul half HI) (N.mul two f)))

/-- `asin`, asin.rs 70-115 -/
def asin (x : D) : M D :=
  let hx := x.toNat >>> 32
  let ix := hx &&& 0x7fffffff
  if ix ≥ 0x3ff00000 then
    let lx := x.toNat % 2 ^ 32
    if (ix - 0x3ff00000) ||| lx = 0 then .ok (N.add (N.mul x HI) tiny)
    else .ok (N.div zero (N.sub x x))
  else if ix < 0x3fe00000 then
    if 0x00100000 ≤ ix ∧ ix < 0x3e500000 then .ok x
    else .ok (N.add x (N.mul x (compR N (N.mul x x))))
  else do
    let z := N.mul (N.sub one (f64.fabs x)) half
    let s ← sqrtD N z
    let y := asinBig N ix z s
    pure (if hx >>> 31 ≠ 0 then f64.neg y else y)

/-- the arccosine of `x` less than -0.5, from `z` and `s` its square root, acos.rs 100-101 -/
def acosNeg (z s : D) : D :=
  let w := N.sub (N.mul (compR N z) s) LO
  N.mul two (N.sub HI (N.add s w))

/-- the arccosine of `x` greater than 0.5, from `z` and `s` its square root, acos.rs 107-111 -/
def acosPos (z s : D) : D :=
  let df := clearLow s
  let c := N.div (N.sub z (N.mul df df)) (N.add s df)
  let w := N.add (N.mul (compR N z) s) c
  N.mul two (N.add df w)

/-- `acos`, acos.rs 63-112 -/
def acos (x : D) : M D :=
  let hx := x.toNat >>> 32
  let ix := hx &&& 0x7fffffff
  if ix ≥ 0x3ff00000 then
    let lx := x.toNat % 2 ^ 32
    if (ix - 0x3ff00000) ||| lx = 0 then
      if hx >>> 31 ≠ 0 then .ok (N.add (N.mul two HI) tiny)
      else .ok zero
    else .ok (N.div zero (N.sub x x))
  else if ix < 0x3fe00000 then
    if ix ≤ 0x3c600000 then .ok (N.add HI tiny)
    else .ok (N.sub HI (N.sub x (N.sub LO (N.mul x (compR N (N.mul x x))))))
  else if hx >>> 31 ≠ 0 then do
    let z := N.mul (N.add one x) half
    let s ← sqrtD N z
    pure (acosNeg N z s)
  else do
    let z := N.mul (N.sub one x) half
    let s ← sqrtD N z
    pure (acosPos N z s)
end

namespace F32
/-- `f32` -/
abbrev S := BitVec f32.w

/-- `P_S0` … `P_S2`, `Q_S1`, asinf.rs 22-25, acosf.rs 20-23 -/
def P0 : S := 0x3e2aaa75#f32.w
def P1 : S := 0xbd2f13ba#f32.w
def P2 : S := 0xbc0dd36b#f32.w
def Q1 : S := 0xbf34e5ae#f32.w
/-- `PIO2_HI`, `PIO2_LO`, acosf.rs 18-19 -/
def HI : S := 0x3fc90fda#f32.w
def LO : S := 0x33a22168#f32.w
/-- `PIO2`, asinf.rs 19 -/
def PIO2 : D := 0x3FF921FB54442D18#f64.w
/-- `0.`, `0.5`, `1.`, `2.` -/
def zero : S := 0x00000000#f32.w
def half : S := 0x3F000000#f32.w
def one : S := 0x3F800000#f32.w
def two : S := 0x40000000#f32.w
/-- `x1p_120`, acosf.rs 38 -/
def tiny : S := 0x03800000#f32.w

section
variable (N : FPU f32) (N64 : FPU f64) (C : FloatCast f32 f64)

/-- `r`, asinf.rs 27-31, acosf.rs 25-29 -/
def compR (z : S) : S :=
  let p := N.mul z (N.add P0 (N.mul z (N.add P1 (N.mul z P2))))
  let q := N.add one (N.mul z Q1)
  N.div p q

/-- `sqrtf`, libm/src/math/sqrtf.rs -/
def sqrtS (z : S) : M S := do
  let (r, _) ← f32.sqrtRound N SqrtCfg.f32 z
  pure r

/-- `s` with the low 12 bits set to zero, acosf.rs 75 -/
def clearLow (s : S) : S := s &&& 0xFFFFF000#f32.w

/-- the arcsine of `|x|` of at least 0.5, from `z` and `s` its square root, asinf.rs 66 -/
def asinBig (z : S) (s : D) : S :=
  C.narrow (N64.sub PIO2 (N64.mul Asin.two (N64.add s (N64.mul s (C.widen (compR N z))))))

/-- `asinf`, asinf.rs 39-68 -/
def asinf (x : S) : M S :=
  let hx := x.toNat
  let ix := hx &&& 0x7fffffff
  if ix ≥ 0x3f800000 then
    if ix = 0x3f800000 then .ok (C.narrow (N64.add (N64.mul (C.widen x) PIO2) Asin.tiny))
    else .ok (N.div zero (N.sub x x))
  else if ix < 0x3f000000 then
    if 0x00800000 ≤ ix ∧ ix < 0x39800000 then .ok x
    else .ok (N.add x (N.mul x (compR N (N.mul x x))))
  else do
    let z := N.mul (N.sub one (f32.fabs x)) half
    let s ← sqrtD N64 (C.widen z)
    let y := asinBig N N64 C z s
    pure (if hx >>> 31 ≠ 0 then f32.neg y else y)

/-- the arccosine of `x` less than -0.5, from `z` and `s` its square root, acosf.rs 68-69 -/
def acosNeg (z s : S) : S :=
  let w := N.sub (N.mul (compR N z) s) LO
  N.mul two (N.sub HI (N.add s w))

/-- the arccosine of `x` greater than 0.5, from `z` and `s` its square root, acosf.rs 75-78 -/
def acosPos (z s : S) : S :=
  let df := clearLow s
  let c := N.div (N.sub z (N.mul df df)) (N.add s df)
  let w := N.add (N.mul (compR N z) s) c
  N.mul two (N.add df w)

/-- `acosf`, acosf.rs 37-79 -/
def acosf (x : S) : M S :=
  let hx := x.toNat
  let ix := hx &&& 0x7fffffff
  if ix ≥ 0x3f800000 then
    if ix = 0x3f800000 then
      if hx >>> 31 ≠ 0 then .ok (N.add (N.mul two HI) tiny)
      else .ok zero
    else .ok (N.div zero (N.sub x x))
  else if ix < 0x3f000000 then
    if ix ≤ 0x32800000 then .ok (N.add HI tiny)
    else .ok (N.sub HI (N.sub x (N.sub LO (N.mul x (compR N (N.mul x x))))))
  else if hx >>> 31 ≠ 0 then do
    let z := N.mul (N.add one x) half
    let s ← sqrtS N z
    pure (acosNeg N z s)
  else do
    let z := N.mul (N.sub one x) half
    let s ← sqrtS N z
    pure (acosPos N z s)
end
end F32
end Asin
end Verif
