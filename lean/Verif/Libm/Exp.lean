import Verif.Libm.RemPio2
/-!
# Model of `exp` and `expf`

libm/src/math/{exp,expf}.rs

The constants are given by the bit patterns in the comments of the source, or by those of the decimal numbers in it.
`force_eval!` (exp.rs 121, 147, expf.rs 63, 94) only raises floating-point exceptions; it is left out. `select_implementation!` (exp.rs 86-90, expf.rs 35-39)
chooses another implementation on `x86` without `sse2`, which is not modelled.
-/
namespace Verif
namespace Exp
open Pio2

/-- `HALF`, exp.rs 70 -/
def half : ℕ → D
  | 0 => 0x3FE0000000000000#f64.w
  | _ => 0xBFE0000000000000#f64.w
/-- exp.rs 71-78 -/
def LN2HI : D := 0x3fe62e42fee00000#f64.w
def LN2LO : D := 0x3dea39ef35793c76#f64.w
def INVLN2 : D := 0x3ff71547652b82fe#f64.w
def P1 : D := 0x3FC555555555553E#f64.w
def P2 : D := 0xBF66C16C16BEBD93#f64.w
def P3 : D := 0x3F11566AAF25DE2C#f64.w
def P4 : D := 0xBEBBBD41C5D26BF1#f64.w
def P5 : D := 0x3E66376972BEA4D0#f64.w
/-- `x1p1023`, exp.rs 92 -/
def x1p1023 : D := 0x7fe0000000000000#f64.w
/-- `709.782712893383973096`, `-708.39641853226410622`, `-745.13321910194110842`, exp.rs 114-122 -/
def OVER : D := 0x40862e42fefa39ef#f64.w
def UND1 : D := 0xc086232bdd7abcd2#f64.w
def UND2 : D := 0xc0874910d52d3051#f64.w
/-- `1.`, `2.` -/
def one : D := 0x3FF0000000000000#f64.w
def two : D := 0x4000000000000000#f64.w

section
variable (N : FPU f64)

/-- `c`, exp.rs 152-153 -/
def polyC (x : D) : D :=
  let xx := N.mul x x
  N.sub x (N.mul xx (N.add P1 (N.mul xx (N.add P2 (N.mul xx (N.add P3 (N.mul xx (N.add P4 (N.mul xx P5)))))))))

/-- the primary range, exp.rs 151-155 -/
def tail (x hi lo : D) (k : Int) : M D :=
  let c := polyC N x
  let y := N.add one (N.add (N.sub (N.div (N.mul x c) (N.sub two c)) lo) hi)
  if k = 0 then .ok y else f64.scalbn N y k

/-- the special cases, exp.rs 109-126; `none` if they do not return -/
def special (x : D) (hx : Nat) : Option D :=
  if hx ≥ 0x4086232b then
    if f64.isNan x then some x
    else if f64.gt x OVER then some (N.mul x x1p1023)
    else if f64.lt x UND1 then (if f64.lt x UND2 then some 0#f64.w else none)
    else none
  else none

/-- `k`, exp.rs 131-136 -/
def pickK (x : D) (hx sign : Nat) : M Int :=
  if hx ≥ 0x3ff0a2b2 then do
    let h ← rd 2 half sign
    toI32 (N.add (N.mul INVLN2 x) h)
  else .ok (1 - (sign : Int) - sign)

/-- `exp`, exp.rs 85-156 -/
def exp (x : D) : M D :=
  let hx := x.toNat >>> 32
  let sign := hx >>> 31
  let hx := hx &&& 0x7fffffff
  match special N x hx with
  | some r => .ok r
  | none =>
    if hx > 0x3fd62e42 then do
      let k ← pickK N x hx sign
      let kf ← ofI32 k
      let hi := N.sub x (N.mul kf LN2HI)
      let lo := N.mul kf LN2LO
      tail N (N.sub hi lo) hi lo k
    else if hx > 0x3e300000 then tail N x x 0#f64.w 0
    else .ok (N.add one x)
end

namespace F32
/-- an `f32` -/
abbrev S := BitVec f32.w

/-- `HALF`, expf.rs 18 -/
def half : ℕ → S
  | 0 => 0x3F000000#f32.w
  | _ => 0xBF000000#f32.w
/-- expf.rs 19-27 -/
def LN2_HI : S := 0x3f317200#f32.w
def LN2_LO : S := 0x35bfbe8e#f32.w
def INV_LN2 : S := 0x3fb8aa3b#f32.w
def P1 : S := 0x3e2aaa8f#f32.w
def P2 : S := 0xbb355215#f32.w
/-- `x1p127`, expf.rs 41 -/
def x1p127 : S := 0x7f000000#f32.w
/-- `1.`, `2.` -/
def one : S := 0x3F800000#f32.w
def two : S := 0x40000000#f32.w

/-- `x as i32` -/
def toI32 (x : S) : M Int := do
  let r ← f32.floatToSigned 32 x
  pure r.toInt
/-- `i as f32` of an `i32` -/
def ofI32 (i : Int) : M S := f32.signedConv Fmt.u32ToF32 (BitVec.ofInt 32 i)

section
variable (N : FPU f32)

/-- `c`, expf.rs 99-100 -/
def polyC (x : S) : S :=
  let xx := N.mul x x
  N.sub x (N.mul xx (N.add P1 (N.mul xx P2)))

/-- the primary range, expf.rs 98-102 -/
def tail (x hi lo : S) (k : Int) : M S :=
  let c := polyC N x
  let y := N.add one (N.add (N.sub (N.div (N.mul x c) (N.sub two c)) lo) hi)
  if k = 0 then .ok y else f32.scalbn N y k

/-- the special cases, expf.rs 49-69; `none` if they do not return -/
def special (x : S) (hx : Nat) (signb : Bool) : Option S :=
  if hx ≥ 0x42aeac50 then
    if hx > 0x7f800000 then some x
    else if hx ≥ 0x42b17218 ∧ signb = false then some (N.mul x x1p127)
    else if signb then (if hx ≥ 0x42cff1b5 then some 0#f32.w else none)
    else none
  else none

/-- `k`, expf.rs 77-82 -/
def pickK (x : S) (hx sign : Nat) : M Int :=
  if hx > 0x3f851592 then do
    let h ← rd 2 half sign
    toI32 (N.add (N.mul INV_LN2 x) h)
  else .ok (1 - (sign : Int) - sign)

/-- `expf`, expf.rs 34-103 -/
def expf (x : S) : M S :=
  let hx := x.toNat
  let sign := hx >>> 31
  let hx := hx &&& 0x7fffffff
  match special N x hx (sign != 0) with
  | some r => .ok r
  | none =>
    if hx > 0x3eb17218 then do
      let k ← pickK N x hx sign
      let kf ← ofI32 k
      let hi := N.sub x (N.mul kf LN2_HI)
      let lo := N.mul kf LN2_LO
      tail N (N.sub hi lo) hi lo k
    else if hx > 0x39000000 then tail N x x 0#f32.w 0
    else .ok (N.add one x)
end
end F32
end Exp
end Verif
