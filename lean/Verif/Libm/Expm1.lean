import Verif.Libm.Exp
/-!
# Model of `expm1` and `expm1f`

libm/src/math/{expm1,expm1f}.rs

The constants are given by the bit patterns in the comments of the source, or by those of the decimal numbers in it.
`force_eval!` (expm1.rs 83-85, expm1f.rs 87-89) only raises floating-point exceptions; it is left out. The part after the reduction of the
argument is the same text in the two files, apart from the constants; it is modelled once, for a format and a set of constants.
-/
namespace Verif
namespace Expm1
open Pio2

/-- the constants of one of the two functions -/
structure Cn (F : Fmt) where
  /-- `0.5`, `1.`, `2.`, `-2.`, `3.`, `6.`, `-0.25` -/
  half : BitVec F.w
  one : BitVec F.w
  two : BitVec F.w
  mtwo : BitVec F.w
  three : BitVec F.w
  six : BitVec F.w
  mquart : BitVec F.w
  /-- the largest power of two, expm1.rs 120, expm1f.rs 36 -/
  pmax : BitVec F.w
  /-- `1024`, expm1.rs 119; `128`, expm1f.rs 121 -/
  kmax : ℤ
  /-- `20`, expm1.rs 128; `23`, expm1f.rs 129 -/
  kmid : ℤ
  /-- `r1` as a function of `hxs`, expm1.rs 95, expm1f.rs 98 -/
  r1 : FPU F → BitVec F.w → BitVec F.w

section
variable {F : Fmt} (N : FPU F) (K : Cn F)

/-- `f64::from_bits(((0x3ff + k) as u64) << 52)`, expm1.rs 114-115 and, with `-k`, 126-127; expm1f.rs 117 and 128 -/
def pw (k : ℤ) : M (BitVec F.w) := do
  let e ← i32C (F.bias + k)
  .ok (BitVec.ofInt F.w e <<< F.s)

/-- the result for a `k` other than 0, 1 and -1: expm1.rs 114-133, expm1f.rs 117-133 -/
def far (x e : BitVec F.w) (k : ℤ) : M (BitVec F.w) := do
  let twopk ← pw (F := F) k
  if k < 0 ∨ 56 < k then
    let y := N.add (N.sub x e) K.one
    let y := if k = K.kmax then N.mul (N.mul y K.two) K.pmax else N.mul y twopk
    .ok (N.sub y K.one)
  else do
    let uf ← pw (F := F) (-k)
    if k < K.kmid then .ok (N.mul (N.add (N.sub x e) (N.sub K.one uf)) twopk)
    else .ok (N.mul (N.add (N.sub x (N.add e uf)) K.one) twopk)

/-- `e` in its first meaning, expm1.rs 93-97, expm1f.rs 96-100 -/
def e0 (x : BitVec F.w) : BitVec F.w :=
  let hfx := N.mul K.half x
  let hxs := N.mul x hfx
  let r1 := K.r1 N hxs
  let t := N.sub K.three (N.mul r1 hfx)
  N.mul hxs (N.div (N.sub r1 t) (N.sub K.six (N.mul x t)))

/-- the primary range, expm1.rs 92-134, expm1f.rs 95-134 -/
def tail (x c : BitVec F.w) (k : ℤ) : M (BitVec F.w) :=
  let hfx := N.mul K.half x
  let hxs := N.mul x hfx
  let e := e0 N K x
  if k = 0 then .ok (N.sub x (N.sub (N.mul x e) hxs))
  else
    let e := N.sub (N.mul x (N.sub e c)) c
    let e := N.sub e hxs
    if k = -1 then .ok (N.sub (N.mul K.half (N.sub x e)) K.half)
    else if k = 1 then
      if F.lt x K.mquart then .ok (N.mul K.mtwo (N.sub e (N.add x K.half)))
      else .ok (N.add K.one (N.mul K.two (N.sub x e)))
    else far N K x e k
end

/-- expm1.rs 13-22 -/
def O_THRESHOLD : D := 0x40862E42FEFA39EF#f64.w
def LN2_HI : D := 0x3fe62e42fee00000#f64.w
def LN2_LO : D := 0x3dea39ef35793c76#f64.w
def INVLN2 : D := 0x3ff71547652b82fe#f64.w
def Q1 : D := 0xBFA11111111110F4#f64.w
def Q2 : D := 0x3F5A01A019FE5585#f64.w
def Q3 : D := 0xBF14CE199EAADBB7#f64.w
def Q4 : D := 0x3ED0CFCA86E65239#f64.w
def Q5 : D := 0xBE8AFDB76E09C32D#f64.w

/-- the constants of `expm1` -/
def K64 : Cn f64 where
  half := 0x3FE0000000000000#f64.w
  one := 0x3FF0000000000000#f64.w
  two := 0x4000000000000000#f64.w
  mtwo := 0xC000000000000000#f64.w
  three := 0x4008000000000000#f64.w
  six := 0x4018000000000000#f64.w
  mquart := 0xBFD0000000000000#f64.w
  pmax := 0x7fe0000000000000#f64.w
  kmax := 1024
  kmid := 20
  r1 N h := N.add 0x3FF0000000000000#f64.w (N.mul h (N.add Q1 (N.mul h (N.add Q2 (N.mul h (N.add Q3 (N.mul h (N.add Q4 (N.mul h Q5)))))))))

/-- `hi`, `lo` and `k`, expm1.rs 62-78 -/
def red (N : FPU f64) (x : D) (hx sign : ℕ) : M (D × D × ℤ) :=
  if hx < 0x3FF0A2B2 then
    if sign = 0 then .ok (N.sub x LN2_HI, LN2_LO, 1)
    else .ok (N.add x LN2_HI, f64.neg LN2_LO, -1)
  else do
    let k ← toI32 (N.add (N.mul INVLN2 x) (if sign ≠ 0 then f64.neg K64.half else K64.half))
    let t ← ofI32 k
    .ok (N.sub x (N.mul t LN2_HI), N.mul t LN2_LO, k)

/-- the special cases, expm1.rs 44-57; `none` if they do not return -/
def special (N : FPU f64) (x : D) (hx sign : ℕ) : Option D :=
  if hx ≥ 0x4043687A then
    if f64.isNan x then some x
    else if sign ≠ 0 then some (f64.neg K64.one)
    else if f64.gt x O_THRESHOLD then some (N.mul x K64.pmax)
    else none
  else none

/-- `expm1`, expm1.rs 32-134 -/
def expm1 (N : FPU f64) (x : D) : M D :=
  let hx := (x.toNat >>> 32) &&& 0x7fffffff
  let sign := x.toNat >>> 63
  match special N x hx sign with
  | some r => .ok r
  | none =>
    if hx > 0x3fd62e42 then do
      let (hi, lo, k) ← red N x hx sign
      let x := N.sub hi lo
      tail N K64 x (N.sub (N.sub hi x) lo) k
    else if hx < 0x3c900000 then .ok x
    else tail N K64 x 0#f64.w 0

namespace F32
abbrev S := BitVec f32.w

/-- expm1f.rs 16-25 -/
def LN2_HI : S := 0x3f317180#f32.w
def LN2_LO : S := 0x3717f7d1#f32.w
def INV_LN2 : S := 0x3fb8aa3b#f32.w
def Q1 : S := 0xbd088868#f32.w
def Q2 : S := 0x3acf3010#f32.w

/-- the constants of `expm1f` -/
def K32 : Cn f32 where
  half := 0x3F000000#f32.w
  one := 0x3F800000#f32.w
  two := 0x40000000#f32.w
  mtwo := 0xC0000000#f32.w
  three := 0x40400000#f32.w
  six := 0x40C00000#f32.w
  mquart := 0xBE800000#f32.w
  pmax := 0x7f000000#f32.w
  kmax := 128
  kmid := 23
  r1 N h := N.add 0x3F800000#f32.w (N.mul h (N.add Q1 (N.mul h Q2)))

/-- `hi`, `lo` and `k`, expm1f.rs 66-82 -/
def red (N : FPU f32) (x : S) (hx : ℕ) (sign : Bool) : M (S × S × ℤ) :=
  if hx < 0x3F851592 then
    if sign = false then .ok (N.sub x LN2_HI, LN2_LO, 1)
    else .ok (N.add x LN2_HI, f32.neg LN2_LO, -1)
  else do
    let k ← Exp.F32.toI32 (N.add (N.mul INV_LN2 x) (if sign then f32.neg K32.half else K32.half))
    let t ← Exp.F32.ofI32 k
    .ok (N.sub x (N.mul t LN2_HI), N.mul t LN2_LO, k)

/-- the special cases, expm1f.rs 42-57; `none` if they do not return -/
def special (N : FPU f32) (x : S) (hx : ℕ) (sign : Bool) : Option S :=
  if hx ≥ 0x4195b844 then
    if hx > 0x7f800000 then some x
    else if sign then some (f32.neg K32.one)
    else if hx > 0x42b17217 then some (N.mul x K32.pmax)
    else none
  else none

/-- `expm1f`, expm1f.rs 35-134 -/
def expm1f (N : FPU f32) (x : S) : M S :=
  let sign := x.toNat >>> 31 != 0
  let hx := x.toNat &&& 0x7fffffff
  match special N x hx sign with
  | some r => .ok r
  | none =>
    if hx > 0x3eb17218 then do
      let (hi, lo, k) ← red N x hx sign
      let x := N.sub hi lo
      tail N K32 x (N.sub (N.sub hi x) lo) k
    else if hx < 0x33000000 then .ok x
    else tail N K32 x 0#f32.w 0
end F32
end Expm1
end Verif
