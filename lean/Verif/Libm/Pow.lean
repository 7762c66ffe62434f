import Verif.Libm.Asin
import Verif.Libm.Log

/-!
# `pow` (pow.rs) and `powf` (powf.rs)

The formulas of the logarithm and of the exponential are the same text in both files; they are written once, for a format and its
constants (`K`). Words (`ix`, `iy`, `lx`, `ly`) are natural numbers: `hx < 0` of the `i32` word is `hx ≥ 2^31` of the `u32` word.
`i32` and `u32` additions, subtractions and shift amounts are checked (the debug build panics), as in the rest of the model.
-/
namespace Verif
open Fmt
namespace Power

/-- The constants of pow.rs 62-91 and powf.rs 19-44, with the literals of the bodies. -/
structure K (F : Fmt) where
  one : BitVec F.w
  mone : BitVec F.w
  two : BitVec F.w
  three : BitVec F.w
  half : BitVec F.w
  quarter : BitVec F.w
  third : BitVec F.w
  BP : List (BitVec F.w)
  DP_H : List (BitVec F.w)
  DP_L : List (BitVec F.w)
  /-- `TWO53`, `TWO24` -/
  TWOP : BitVec F.w
  HUGE : BitVec F.w
  TINY : BitVec F.w
  L1 : BitVec F.w
  L2 : BitVec F.w
  L3 : BitVec F.w
  L4 : BitVec F.w
  L5 : BitVec F.w
  L6 : BitVec F.w
  P1 : BitVec F.w
  P2 : BitVec F.w
  P3 : BitVec F.w
  P4 : BitVec F.w
  P5 : BitVec F.w
  LG2 : BitVec F.w
  LG2_H : BitVec F.w
  LG2_L : BitVec F.w
  OVT : BitVec F.w
  CP : BitVec F.w
  CP_H : BitVec F.w
  CP_L : BitVec F.w
  IVLN2 : BitVec F.w
  IVLN2_H : BitVec F.w
  IVLN2_L : BitVec F.w

/-- pow.rs 62-91 -/
def KD : K f64 where
  one := 0x3ff0000000000000#f64.w
  mone := 0xbff0000000000000#f64.w
  two := 0x4000000000000000#f64.w
  three := 0x4008000000000000#f64.w
  half := 0x3fe0000000000000#f64.w
  quarter := 0x3fd0000000000000#f64.w
  third := 0x3fd5555555555555#f64.w
  BP := [0x3ff0000000000000#f64.w, 0x3ff8000000000000#f64.w]
  DP_H := [0#f64.w, 0x3fe2b80340000000#f64.w]
  DP_L := [0#f64.w, 0x3e4cfdeb43cfd006#f64.w]
  TWOP := 0x4340000000000000#f64.w
  HUGE := 0x7e37e43c8800759c#f64.w
  TINY := 0x01a56e1fc2f8f359#f64.w
  L1 := 0x3fe3333333333303#f64.w
  L2 := 0x3fdb6db6db6fabff#f64.w
  L3 := 0x3fd55555518f264d#f64.w
  L4 := 0x3fd17460a91d4101#f64.w
  L5 := 0x3fcd864a93c9db65#f64.w
  L6 := 0x3fca7e284a454eef#f64.w
  P1 := 0x3fc555555555553e#f64.w
  P2 := 0xbf66c16c16bebd93#f64.w
  P3 := 0x3f11566aaf25de2c#f64.w
  P4 := 0xbebbbd41c5d26bf1#f64.w
  P5 := 0x3e66376972bea4d0#f64.w
  LG2 := 0x3fe62e42fefa39ef#f64.w
  LG2_H := 0x3fe62e4300000000#f64.w
  LG2_L := 0xbe205c610ca86c39#f64.w
  OVT := 0x3c971547652b82fe#f64.w
  CP := 0x3feec709dc3a03fd#f64.w
  CP_H := 0x3feec709e0000000#f64.w
  CP_L := 0xbe3e2fe0145b01f5#f64.w
  IVLN2 := 0x3ff71547652b82fe#f64.w
  IVLN2_H := 0x3ff7154760000000#f64.w
  IVLN2_L := 0x3e54ae0bf85ddf44#f64.w

/-- powf.rs 19-44 -/
def KS : K f32 where
  one := 0x3f800000#f32.w
  mone := 0xbf800000#f32.w
  two := 0x40000000#f32.w
  three := 0x40400000#f32.w
  half := 0x3f000000#f32.w
  quarter := 0x3e800000#f32.w
  third := 0x3eaaaaab#f32.w
  BP := [0x3f800000#f32.w, 0x3fc00000#f32.w]
  DP_H := [0#f32.w, 0x3f15c000#f32.w]
  DP_L := [0#f32.w, 0x35d1cfdc#f32.w]
  TWOP := 0x4b800000#f32.w
  HUGE := 0x7149f2ca#f32.w
  TINY := 0x0da24260#f32.w
  L1 := 0x3f19999a#f32.w
  L2 := 0x3edb6db7#f32.w
  L3 := 0x3eaaaaab#f32.w
  L4 := 0x3e8ba305#f32.w
  L5 := 0x3e6c3255#f32.w
  L6 := 0x3e53f142#f32.w
  P1 := 0x3e2aaaab#f32.w
  P2 := 0xbb360b61#f32.w
  P3 := 0x388ab355#f32.w
  P4 := 0xb5ddea0e#f32.w
  P5 := 0x3331bb4c#f32.w
  LG2 := 0x3f317218#f32.w
  LG2_H := 0x3f317200#f32.w
  LG2_L := 0x35bfbe8c#f32.w
  OVT := 0x3338aa3c#f32.w
  CP := 0x3f76384f#f32.w
  CP_H := 0x3f764000#f32.w
  CP_L := 0xb8f623c6#f32.w
  IVLN2 := 0x3fb8aa3b#f32.w
  IVLN2_H := 0x3fb8aa00#f32.w
  IVLN2_L := 0x36eca570#f32.w

section
variable {F : Fmt} (N : FPU F) (c : K F) (cl : BitVec F.w → BitVec F.w)

/-- `(|x| > 1)**±inf` and the like, `y` infinite; `cmp` compares the word of `|x|` with that of 1: pow.rs 157-167, powf.rs 118-128 -/
def yInf (cmp : Ordering) (yneg : Bool) (y : BitVec F.w) : BitVec F.w :=
  match cmp with
  | .eq => c.one
  | .gt => if yneg then 0#F.w else y
  | .lt => if yneg then F.neg y else 0#F.w

/-- `x` is `±0`, `±inf` or `±1` (`isone`): pow.rs 193-209, powf.rs 150-165 -/
def xSpecial (xneg yneg isone : Bool) (yisint : Nat) (ax : BitVec F.w) : BitVec F.w :=
  let z := if yneg then N.div c.one ax else ax
  if xneg then
    if isone ∧ yisint = 0 then N.div (N.sub z z) (N.sub z z)
    else if yisint = 1 then F.neg z
    else z
  else z

/-- `s * HUGE * HUGE` -/
def huge (s : BitVec F.w) : BitVec F.w := N.mul (N.mul s c.HUGE) c.HUGE
/-- `s * TINY * TINY` -/
def tiny (s : BitVec F.w) : BitVec F.w := N.mul (N.mul s c.TINY) c.TINY

/-- the last line `s * z`, pow.rs 401, powf.rs 342 -/
def times (s : BitVec F.w) (z : M (BitVec F.w)) : M (BitVec F.w) := do
  let z ← z
  pure (N.mul s z)

/-- the base-2 logarithm of `ax` next to 1, in two parts: pow.rs 256-262, powf.rs 201-211 -/
def logNear (ax : BitVec F.w) : BitVec F.w × BitVec F.w :=
  let t := N.sub ax c.one
  let w := N.mul (N.mul t t) (N.sub c.half (N.mul t (N.sub c.third (N.mul t c.quarter))))
  let u := N.mul c.IVLN2_H t
  let v := N.sub (N.mul t c.IVLN2_L) (N.mul w c.IVLN2)
  let t1 := cl (N.add u v)
  (t1, N.sub v (N.sub t1 u))

/-- the base-2 logarithm of `ax` times `2^t`, in two parts; `bp`, `dph`, `dpl` are the table entries, `th` is `ax + bp` rounded:
pow.rs 294-329, powf.rs 242-278 -/
def logMain (ax bp dph dpl th t : BitVec F.w) : BitVec F.w × BitVec F.w :=
  let u := N.sub ax bp
  let v := N.div c.one (N.add ax bp)
  let ss := N.mul u v
  let s_h := cl ss
  let t_l := N.sub ax (N.sub th bp)
  let s_l := N.mul v (N.sub (N.sub u (N.mul s_h th)) (N.mul s_h t_l))
  let s2 := N.mul ss ss
  let r := N.mul (N.mul s2 s2) (N.add c.L1 (N.mul s2 (N.add c.L2 (N.mul s2 (N.add c.L3 (N.mul s2 (N.add c.L4 (N.mul s2
    (N.add c.L5 (N.mul s2 c.L6))))))))))
  let r := N.add r (N.mul s_l (N.add s_h ss))
  let s2 := N.mul s_h s_h
  let t_h := cl (N.add (N.add c.three s2) r)
  let t_l := N.sub r (N.sub (N.sub t_h c.three) s2)
  let u := N.mul s_h t_h
  let v := N.add (N.mul s_l t_h) (N.mul t_l ss)
  let p_h := cl (N.add u v)
  let p_l := N.sub v (N.sub p_h u)
  let z_h := N.mul c.CP_H p_h
  let z_l := N.add (N.add (N.mul c.CP_L p_h) (N.mul p_l c.CP)) dpl
  let t1 := cl (N.add (N.add (N.add z_h z_l) dph) t)
  (t1, N.sub z_l (N.sub (N.sub (N.sub t1 t) dph) z_h))

/-- `2^(p_h + p_l)` for a small sum, with `t` the high part of the sum: pow.rs 385-392, powf.rs 323-331 -/
def expMain (t p_l p_h : BitVec F.w) : BitVec F.w :=
  let u := N.mul t c.LG2_H
  let v := N.add (N.mul (N.sub p_l (N.sub t p_h)) c.LG2) (N.mul t c.LG2_L)
  let z := N.add u v
  let w := N.sub v (N.sub z u)
  let t := N.mul z z
  let t1 := N.sub z (N.mul t (N.add c.P1 (N.mul t (N.add c.P2 (N.mul t (N.add c.P3 (N.mul t (N.add c.P4 (N.mul t c.P5)))))))))
  let r := N.sub (N.div (N.mul z t1) (N.sub t1 c.two)) (N.add w (N.mul z w))
  N.sub c.one (N.sub r z)
end

/-- `w as i32` of a `u32` word -/
def i32of (w : Nat) : Int := i32W w
/-- `w as u32` of an `i32` word -/
def u32of (i : Int) : Nat := (i % 2 ^ 32).toNat

/-! ## `pow` -/

section
variable (N : FPU f64)
local notation "D" => BitVec f64.w

/-- `with_set_high_word(x, w)`, mod.rs 344-349 -/
def setHi (x : D) (w : Nat) : D := BitVec.ofNat f64.w (w <<< 32 ||| (x.toNat &&& 0xffffffff))

/-- is `y` an integer: 0 no, 1 odd, 2 even; pow.rs 131-151 (only evaluated for `hx < 0`) -/
def yisint (iy ly : Nat) : M Nat :=
  if iy ≥ 0x43400000 then .ok 2
  else if iy ≥ 0x3ff00000 then
    let k : Nat := iy >>> 20 - 0x3ff
    if k > 20 then do
      let d ← nsubC 52 k
      if d < 32 then
        let j := ly >>> d
        .ok (if (j <<< d) % 2 ^ 32 = ly then 2 - (j &&& 1) else 0)
      else .error .shift
    else if ly = 0 then do
      let d ← nsubC 20 k
      let j := iy >>> d
      .ok (if (j <<< d) % 2 ^ 32 = iy then 2 - (j &&& 1) else 0)
    else .ok 0
  else .ok 0

/-- the interval of the mantissa and the table entries, and the logarithm: pow.rs 265-329; `ax`, `ix` after the scaling of a subnormal -/
def logD (ax : D) (ix : Nat) (n : Int) : M (D × D) := do
  let n ← i32C (n + ((ix >>> 20 : Nat) - 0x3ff))
  let j := ix &&& 0x000fffff
  let ix := j ||| 0x3ff00000
  let (k, n, ix) ← if j ≤ 0x3988E then pure (0, n, ix) else if j < 0xBB67A then pure (1, n, ix) else do
    let n ← i32C (n + 1)
    let ix ← nsubC ix 0x00100000
    pure (0, n, ix)
  let ax := setHi ax ix
  let bp ← Pio2.rd 2 (KD.BP.getD · 0) k
  let w ← Log.u32C ((ix >>> 1 ||| 0x20000000) + 0x00080000)
  let w ← Log.u32C (w + k <<< 18)
  let dpl ← Pio2.rd 2 (KD.DP_L.getD · 0) k
  let t ← Pio2.ofI32 n
  let dph ← Pio2.rd 2 (KD.DP_H.getD · 0) k
  pure (logMain N KD Asin.clearLow ax bp dph dpl (setHi 0 w) t)

/-- the exponent of the result and `2^(p_h + p_l)`; `j` is the high word of the sum: pow.rs 365-399. `(n & 0x000fffff) | 0x00100000` is written with `+`
(no common bits); `as i32` and `as u32` are `i32of` and `u32of` -/
def exp2D (p_l p_h : D) (j : Int) : M D := do
  let i := Pio2.andI j 0x7fffffff
  let k := i / 2 ^ 20 - 0x3ff
  let (n, p_h) ← if i > 0x3fe00000 then do
      let sh ← Pio2.sarI 0x00100000 (k + 1)
      let n ← i32C (j + sh)
      let k := Pio2.andI n 0x7fffffff / 2 ^ 20 - 0x3ff
      let m ← Pio2.sarI 0x000fffff k
      let t := setHi 0 (u32of (Pio2.andI n (-m - 1)))
      let n ← Pio2.sarI (Pio2.andI n 0x000fffff + 0x00100000) (20 - k)
      pure (if j < 0 then -n else n, N.sub p_h t)
    else pure (0, p_h)
  let t := Asin.clearLow (N.add p_l p_h)
  let z := expMain N KD t p_l p_h
  let j := i32of (z.toNat >>> 32)
  let n' ← Pio2.salI n 20
  let j ← i32C (j + n')
  if j / 2 ^ 20 ≤ 0 then f64.scalbn N z n
  else pure (setHi z (u32of j))

/-- the product of `y` and the logarithm, the limits of the range, and the power: pow.rs 332-401 -/
def finishD (s y t1 t2 : D) : M D := do
  let y1 := Asin.clearLow y
  let p_l := N.add (N.mul (N.sub y y1) t1) (N.mul y t2)
  let p_h := N.mul y1 t1
  let z := N.add p_l p_h
  let j := i32of (z.toNat >>> 32)
  let i := z.toNat &&& 0xffffffff
  if j ≥ 0x40900000 then
    if u32of (j - 0x40900000) ||| i ≠ 0 then pure (huge N KD s)
    else if f64.gt (N.add p_l KD.OVT) (N.sub z p_h) then pure (huge N KD s)
    else times N s (exp2D N p_l p_h j)
  else if Pio2.andI j 0x7fffffff ≥ 0x4090cc00 then do
    let d ← nsubC (u32of j) 0xc090cc00
    if d ||| i ≠ 0 then pure (tiny N KD s)
    else if f64.le p_l (N.sub z p_h) then pure (tiny N KD s)
    else times N s (exp2D N p_l p_h j)
  else times N s (exp2D N p_l p_h j)

/-- everything after the special cases, `s` the sign of the result, `ax = |x|`, `hy` the high word of `y`: pow.rs 226-401 -/
def coreD (s ax y : D) (ix hy iy : Nat) : M D :=
  if iy > 0x41e00000 then
    if iy > 0x43f00000 ∧ ix ≤ 0x3fefffff then
      .ok (if hy ≥ 2 ^ 31 then N.mul KD.HUGE KD.HUGE else N.mul KD.TINY KD.TINY)
    else if iy > 0x43f00000 ∧ ix ≥ 0x3ff00000 then
      .ok (if 0 < hy ∧ hy < 2 ^ 31 then N.mul KD.HUGE KD.HUGE else N.mul KD.TINY KD.TINY)
    else if ix < 0x3fefffff then .ok (if hy ≥ 2 ^ 31 then huge N KD s else tiny N KD s)
    else if ix > 0x3ff00000 then .ok (if 0 < hy ∧ hy < 2 ^ 31 then huge N KD s else tiny N KD s)
    else
      let t := logNear N KD Asin.clearLow ax
      finishD N s y t.1 t.2
  else do
    let t ← if ix < 0x00100000 then
        let ax := N.mul ax KD.TWOP
        logD N ax (ax.toNat >>> 32) (-53)
      else logD N ax ix 0
    finishD N s y t.1 t.2

/-- `pow`, pow.rs 94-402 -/
def pow (x y : D) : M D :=
  let hx := x.toNat >>> 32
  let lx := x.toNat &&& 0xffffffff
  let hy := y.toNat >>> 32
  let ly := y.toNat &&& 0xffffffff
  let ix := hx &&& 0x7fffffff
  let iy := hy &&& 0x7fffffff
  if iy ||| ly = 0 then .ok KD.one
  else if hx = 0x3ff00000 ∧ lx = 0 then .ok KD.one
  else if ix > 0x7ff00000 ∨ (ix = 0x7ff00000 ∧ lx ≠ 0) ∨ iy > 0x7ff00000 ∨ (iy = 0x7ff00000 ∧ ly ≠ 0) then .ok (N.add x y)
  else do
    let yi ← if hx ≥ 2 ^ 31 then yisint iy ly else pure 0
    if ly = 0 ∧ iy = 0x7ff00000 then
      pure (yInf KD (if ix = 0x3ff00000 ∧ lx = 0 then .eq else if ix ≥ 0x3ff00000 then .gt else .lt) (decide (hy ≥ 2 ^ 31)) y)
    else if ly = 0 ∧ iy = 0x3ff00000 then pure (if hy ≥ 2 ^ 31 then N.div KD.one x else x)
    else if ly = 0 ∧ hy = 0x40000000 then pure (N.mul x x)
    else if ly = 0 ∧ hy = 0x3fe00000 ∧ hx < 2 ^ 31 then Asin.sqrtD N x
    else if lx = 0 ∧ (ix = 0x7ff00000 ∨ ix = 0 ∨ ix = 0x3ff00000) then
      pure (xSpecial N KD (decide (hx ≥ 2 ^ 31)) (decide (hy ≥ 2 ^ 31)) (decide (ix = 0x3ff00000)) yi (f64.fabs x))
    else if hx ≥ 2 ^ 31 ∧ yi = 0 then pure (N.div (N.sub x x) (N.sub x x))
    else coreD N (if hx ≥ 2 ^ 31 ∧ yi = 1 then KD.mone else KD.one) (f64.fabs x) y ix hy iy
end

/-! ## `powf` -/

section
variable (N : FPU f32)
local notation "S" => BitVec f32.w

/-- is `y` an integer: 0 no, 1 odd, 2 even; powf.rs 99-111 (only evaluated for `hx < 0`) -/
def yisintS (iy : Nat) : M Nat :=
  if iy ≥ 0x4b800000 then .ok 2
  else if iy ≥ 0x3f800000 then do
    let k : Nat := iy >>> 23 - 0x7f
    let d ← nsubC 23 k
    let j := iy >>> d
    .ok (if (j <<< d) % 2 ^ 32 = iy then 2 - (j &&& 1) else 0)
  else .ok 0

/-- powf.rs 222-278; `ix` after the scaling of a subnormal -/
def logS (ix : Nat) (n : Int) : M (S × S) := do
  let n ← i32C (n + ((ix >>> 23 : Nat) - 0x7f))
  let j := ix &&& 0x007fffff
  let ix := j ||| 0x3f800000
  let (k, n, ix) ← if j ≤ 0x1cc471 then pure (0, n, ix) else if j < 0x5db3d7 then pure (1, n, ix) else do
    let n ← i32C (n + 1)
    let ix ← nsubC ix 0x00800000
    pure (0, n, ix)
  let ax := BitVec.ofNat f32.w ix
  let bp ← Pio2.rd 2 (KS.BP.getD · 0) k
  let w ← Log.u32C (((ix >>> 1 &&& 0xfffff000) ||| 0x20000000) + 0x00400000)
  let w ← Log.u32C (w + k <<< 21)
  let dpl ← Pio2.rd 2 (KS.DP_L.getD · 0) k
  let t ← Exp.F32.ofI32 n
  let dph ← Pio2.rd 2 (KS.DP_H.getD · 0) k
  pure (logMain N KS Asin.F32.clearLow ax bp dph dpl (BitVec.ofNat f32.w w) t)

/-- powf.rs 306-341 -/
def exp2S (p_l p_h : S) (j : Int) : M S := do
  let i := Pio2.andI j 0x7fffffff
  let k := i / 2 ^ 23 - 0x7f
  let (n, p_h) ← if i > 0x3f000000 then do
      let sh ← Pio2.sarI 0x00800000 (k + 1)
      let n ← i32C (j + sh)
      let k := Pio2.andI n 0x7fffffff / 2 ^ 23 - 0x7f
      let m ← Pio2.sarI 0x007fffff k
      let t := BitVec.ofNat f32.w (u32of (Pio2.andI n (-m - 1)))
      let n ← Pio2.sarI (Pio2.andI n 0x007fffff + 0x00800000) (23 - k)
      pure (if j < 0 then -n else n, N.sub p_h t)
    else pure (0, p_h)
  let t := N.add p_l p_h &&& 0xffff8000#f32.w
  let z := expMain N KS t p_l p_h
  let j := i32of z.toNat
  let n' ← Pio2.salI n 23
  let j ← i32C (j + n')
  if j / 2 ^ 23 ≤ 0 then f32.scalbn N z n
  else pure (BitVec.ofNat f32.w (u32of j))

/-- powf.rs 280-342 -/
def finishS (s y t1 t2 : S) : M S :=
  let y1 := Asin.F32.clearLow y
  let p_l := N.add (N.mul (N.sub y y1) t1) (N.mul y t2)
  let p_h := N.mul y1 t1
  let z := N.add p_l p_h
  let j := i32of z.toNat
  if j > 0x43000000 then .ok (huge N KS s)
  else if j = 0x43000000 then
    if f32.gt (N.add p_l KS.OVT) (N.sub z p_h) then .ok (huge N KS s) else times N s (exp2S N p_l p_h j)
  else if Pio2.andI j 0x7fffffff > 0x43160000 then .ok (tiny N KS s)
  else if u32of j = 0xc3160000 ∧ f32.le p_l (N.sub z p_h) then .ok (tiny N KS s)
  else times N s (exp2S N p_l p_h j)

/-- powf.rs 180-342 -/
def coreS (s ax y : S) (ix hy iy : Nat) : M S :=
  if iy > 0x4d000000 then
    if ix < 0x3f7ffff8 then .ok (if hy ≥ 2 ^ 31 then huge N KS s else tiny N KS s)
    else if ix > 0x3f800007 then .ok (if 0 < hy ∧ hy < 2 ^ 31 then huge N KS s else tiny N KS s)
    else
      let t := logNear N KS Asin.F32.clearLow ax
      finishS N s y t.1 t.2
  else do
    let t ← if ix < 0x00800000 then logS N (N.mul ax KS.TWOP).toNat (-24) else logS N ix 0
    finishS N s y t.1 t.2

/-- `powf`, powf.rs 47-343 -/
def powf (x y : S) : M S :=
  let hx := x.toNat
  let hy := y.toNat
  let ix := hx &&& 0x7fffffff
  let iy := hy &&& 0x7fffffff
  if iy = 0 then .ok KS.one
  else if hx = 0x3f800000 then .ok KS.one
  else if ix > 0x7f800000 ∨ iy > 0x7f800000 then .ok (N.add x y)
  else do
    let yi ← if hx ≥ 2 ^ 31 then yisintS iy else pure 0
    if iy = 0x7f800000 then pure (yInf KS (compare ix 0x3f800000) (decide (hy ≥ 2 ^ 31)) y)
    else if iy = 0x3f800000 then pure (if hy ≥ 2 ^ 31 then N.div KS.one x else x)
    else if hy = 0x40000000 then pure (N.mul x x)
    else if hy = 0x3f000000 ∧ hx < 2 ^ 31 then Asin.F32.sqrtS N x
    else if ix = 0x7f800000 ∨ ix = 0 ∨ ix = 0x3f800000 then
      pure (xSpecial N KS (decide (hx ≥ 2 ^ 31)) (decide (hy ≥ 2 ^ 31)) (decide (ix = 0x3f800000)) yi (f32.fabs x))
    else if hx ≥ 2 ^ 31 ∧ yi = 0 then pure (N.div (N.sub x x) (N.sub x x))
    else coreS N (if hx ≥ 2 ^ 31 ∧ yi = 1 then KS.mone else KS.one) (f32.fabs x) y ix hy iy
end

end Power
end Verif
