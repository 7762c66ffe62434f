import Verif.Libm.FmaTop
import Verif.Libm.SqrtMain
/-!
# Model of `hypot` (libm/src/math/hypot.rs)

`HypotOps` collects what the function calls: the native operators, `f64::fma` (an instruction, or `fma_round` of the crate where
there is none), `sqrt`, and the two native conversions between `f64` and 64-bit integers. The floating-point environment
(`get_flags`, `set_flags`: no-ops in the crate, lines 297-301) is not modelled. `hf64!` constants are given by their bits.

`chk` says whether the crate was compiled with overflow checks. The only operators for which this matters in `hypot` are the two
signed subtractions of `as_hypot_hard`; all others are modelled as checked whatever `chk` is, and shown not to overflow.
-/
namespace Verif

/-- what `hypot` calls -/
structure HypotOps where
  N : FPU f64
  fma : BitVec f64.w → BitVec f64.w → BitVec f64.w → M (BitVec f64.w)
  sqrt : BitVec f64.w → M (BitVec f64.w)
  C : IntCast f64
  /-- `as u64` -/
  toU64 : BitVec f64.w → M (BitVec f64.w)

/-- `a - b` on `i64` -/
def subI64 (chk : Bool) (a b : BitVec f64.w) : M (BitVec f64.w) :=
  if chk && a.ssubOverflow b then .error .overflow else .ok (a - b)

namespace Hypot

/-- `1.0 + hf64!("0x1p-54")` and `1.0 - hf64!("0x1p-54")`, hypot.rs 158-159, 241-242 -/
def opom (N : FPU f64) : BitVec f64.w × BitVec f64.w :=
  (N.add 0x3ff0000000000000#f64.w 0x3c90000000000000#f64.w, N.sub 0x3ff0000000000000#f64.w 0x3c90000000000000#f64.w)

/-- hypot.rs 172-180: one of the three decrements of the square root -/
def dec (p : BitVec f64.w × Int) : M (BitVec f64.w × Int) := do
  if p.1 = 1#f64.w <<< 52 then do
    let re ← i32C (p.2 - 1)
    pure (BitVec.allOnes f64.w >>> 11, re)
  else do
    let rm ← subC p.1 1#f64.w
    pure (rm, p.2)

/-- hypot.rs 182-196: the sum of the squares of the significands modulo `2^64`, the last bit sticky -/
def sumSq (bm lm : BitVec f64.w) (be le : Int) : M (BitVec f64.w) := do
  let bs : Int := 2
  let bm ← shlI bm bs
  let m2 := bm * bm
  let de ← i32C (be - le)
  let ls ← i32C (bs - de)
  if ls ≥ 0 then do
    let lm ← shlI lm ls
    pure (m2 + lm * lm)
  else do
    let lm2 ← mulC (lm.setWidth 128) (lm.setWidth 128)
    let ls ← i32C (ls * 2)
    let n ← i32C (-ls)
    let hi ← shrI lm2 n
    let m2 := m2 + hi.setWidth f64.w
    let n ← i32C (128 + ls)
    let lo ← shlI lm2 n
    pure (m2 ||| ofBoolW f64.w (decide (lo ≠ 0#128)))

/-- hypot.rs 201-210: the loop, with a bound on the number of iterations that is shown never to be reached -/
def loop (chk : Bool) (m2 : BitVec f64.w) (k : Int) : Nat → BitVec f64.w → M (BitVec f64.w × BitVec f64.w)
  | 0, _ => .error .fuel
  | n + 1, rm => do
    let inc ← addC 1#f64.w (ofBoolW f64.w (decide ((1#f64.w <<< 53) ≤ rm)))
    let rm ← addC rm inc
    let tm ← shlI rm k
    let rm2 := tm * tm
    let d ← subI64 chk m2 rm2
    if d.toInt ≤ 0 then pure (rm, d) else loop chk m2 k n rm

/-- hypot.rs 212-227: round to nearest, or in the direction found by adding and subtracting `2^-54` -/
def round (N : FPU f64) (chk : Bool) (m2 : BitVec f64.w) (k : Int) (rm d : BitVec f64.w) : M (BitVec f64.w) := do
  let (op, om) := opom N
  if d = 0#f64.w then pure rm
  else if f64.feq op om then do
    let t ← shlI rm k
    let n ← i32C (k - (if rm ≤ 1#f64.w <<< 53 then 1 else 0))
    let h ← shlI 1#f64.w n
    let tm ← subC t h
    let d ← subI64 chk m2 (tm * tm)
    if d = 0#f64.w then subC rm (rm &&& 1#f64.w)
    else pure (rm + d.sshiftRight 63)
  else do
    let s ← shlC (ofBoolW f64.w (f64.feq op 0x3ff0000000000000#f64.w)) (if rm > 1#f64.w <<< 53 then 1 else 0)
    subC rm s

/-- hypot.rs 229-237: reassemble -/
def pack (be : Int) (rm : BitVec f64.w) (re : Int) : M (BitVec f64.w) := do
  let (rm, re) ← (if 1#f64.w <<< 53 ≤ rm then do
      let re ← i32C (re + 1)
      pure (rm >>> 1, re)
    else pure (rm, re))
  let e ← i32C (be - 1)
  let e ← i32C (e + re)
  let e : BitVec f64.w := BitVec.ofInt f64.w e
  addC (e <<< 52) rm

/-- `as_hypot_hard`, hypot.rs 157-238 -/
def hard (H : HypotOps) (chk : Bool) (x y : BitVec f64.w) : M (BitVec f64.w) := do
  let bm := (x &&& (BitVec.allOnes f64.w >>> 12)) ||| (1#f64.w <<< 52)
  let lm := (y &&& (BitVec.allOnes f64.w >>> 12)) ||| (1#f64.w <<< 52)
  let be : Int := (x >>> 52).toNat
  let le : Int := (y >>> 52).toNat
  let ri ← H.sqrt (H.N.add (H.N.mul x x) (H.N.mul y y))
  let rm := ri &&& (BitVec.allOnes f64.w >>> 12)
  let re ← i32C (((ri >>> 52).toNat : Int) - 0x3ff)
  let rm := rm ||| (1#f64.w <<< 52)
  let p ← dec (rm, re)
  let p ← dec p
  let (rm, re) ← dec p
  let m2 ← sumSq bm lm be le
  let k ← i32C (2 + re)
  let (rm, d) ← loop chk m2 k 64 rm
  let rm ← round H.N chk m2 k rm d
  pack be rm re

/-- hypot.rs 260-269: the loop, with a bound on the number of iterations that is shown never to be reached -/
def denLoop (drm : BitVec f64.w) : Nat → BitVec f64.w → BitVec f64.w → BitVec f64.w → M (BitVec f64.w × BitVec f64.w × BitVec f64.w)
  | 0, _, _, _ => .error .fuel
  | n + 1, rm, d, dd =>
    let pd := d
    let rm := rm + drm
    let d := d - dd
    let dd := dd + 8#f64.w
    if (d ^^^ pd).toInt ≤ 0 then pure (rm, d, pd) else denLoop drm n rm d dd

/-- checked `a + b` on `i64` -/
def addI64 (a b : BitVec f64.w) : M (BitVec f64.w) := if a.saddOverflow b then .error .overflow else .ok (a + b)
/-- checked `a - b` on `i64` -/
def subI64C (a b : BitVec f64.w) : M (BitVec f64.w) := subI64 true a b

/-- hypot.rs 271-289: round to nearest, or in the direction found by adding and subtracting `2^-54` -/
def denRound (N : FPU f64) (rm pd : BitVec f64.w) : M (BitVec f64.w) := do
  let (op, om) := opom N
  if pd ≠ 0#f64.w then
    if f64.feq op om then do
      let sum := pd - 4#f64.w * rm - 1#f64.w
      if sum ≠ 0#f64.w then pure (rm + (sum.sshiftRight 63 + 1#f64.w))
      else addC rm (rm &&& 1#f64.w)
    else addC rm (ofBoolW f64.w (f64.gt op 0x3ff0000000000000#f64.w))
  else pure rm

/-- `as_hypot_denorm`, hypot.rs 240-293 -/
def denorm (H : HypotOps) (a b : BitVec f64.w) : M (BitVec f64.w) := do
  let af := H.C.cast a
  let bf := H.C.cast b
  let a ← shlC a 1
  let b ← shlC b 1
  let t ← H.sqrt (H.N.add (H.N.mul af af) (H.N.mul bf bf))
  let rm ← H.toU64 t
  let tm ← shlC rm 1
  let d := a * a - tm * tm + b * b
  let sd := d.sshiftRight 63
  let um ← subI64C (rm ^^^ sd) sd
  let drm ← addI64 sd 1#f64.w
  let dd ← addI64 (um <<< 3) 4#f64.w
  let rm ← subC rm drm
  let drm ← addI64 drm sd
  let (rm, d, pd) ← denLoop drm 64 rm d dd
  let pd ← addI64 (sd &&& d) (~~~sd &&& pd)
  denRound H.N rm pd

/-- `fasttwosum`, hypot.rs 137-142 -/
def fasttwosum (N : FPU f64) (x y : BitVec f64.w) : BitVec f64.w × BitVec f64.w :=
  let s := N.add x y
  let z := N.sub s x
  (s, N.sub y z)

/-- `as_hypot_overflow`, hypot.rs 144-151 -/
def overflow (N : FPU f64) : BitVec f64.w := N.add 0x7fefffffffffffff#f64.w 0x7fefffffffffffff#f64.w

/-- hypot.rs 105-116: the square root of `x^2 + y^2` in double-double arithmetic, for `x` in `[1, 2)` and `y <= x` -/
def fast (H : HypotOps) (x y : BitVec f64.w) : M (BitVec f64.w × BitVec f64.w) := do
  let x2 := H.N.mul x x
  let dx2 ← H.fma x x (f64.neg x2)
  let y2 := H.N.mul y y
  let dy2 ← H.fma y y (f64.neg y2)
  let r2 := H.N.add x2 y2
  let ir2 := H.N.div 0x3fe0000000000000#f64.w r2
  let dr2 := H.N.add (H.N.add (H.N.sub x2 r2) y2) (H.N.add dx2 dy2)
  let th ← H.sqrt r2
  let rsqrt := H.N.mul th ir2
  let w ← H.fma th th (f64.neg r2)
  let dz := H.N.sub dr2 w
  let tl := H.N.mul rsqrt dz
  pure (fasttwosum H.N th tl)

/-- hypot.rs 117-124: is the approximation too close to a midpoint (or possibly exact)? -/
def isHard (th tl : BitVec f64.w) : Bool :=
  let tld := tl &&& ~~~f64.signMask
  let ex := th &&& f64.expMask
  let aidr := tld + (0x3fe#f64.w <<< 52) - ex
  let mid := (aidr - 0x3c90000000000000#f64.w + 16#f64.w) >>> 5
  decide (mid = 0#f64.w) || !(decide (0x39b0000000000000#f64.w ≤ aidr) && decide (aidr ≤ 0x3c9fffffffffff80#f64.w))

/-- hypot.rs 100-134: both arguments scaled to the binade of the larger one, whose bits are `xd` -/
def main (H : HypotOps) (chk : Bool) (xd yd : BitVec f64.w) : M (BitVec f64.w) := do
  let off ← subI64C (0x3ff#f64.w <<< 52) (xd &&& f64.expMask)
  let x := xd + off
  let y := yd + off
  let (th, tl) ← fast H x y
  let thd ← (if isHard th tl then hard H chk x y else pure th)
  let thd := thd - off
  if 0x7ff#f64.w <<< 52 ≤ thd then pure (overflow H.N) else pure thd

/-- hypot.rs 86-91: give a subnormal a (possibly non-positive) exponent field and a full significand -/
def renorm (ey : BitVec f64.w) : M (BitVec f64.w) := do
  let nz := ey.clz.toNat
  let s ← nsubC nz 11
  let ey ← shlC ey s
  let ey := ey &&& (BitVec.allOnes f64.w >>> 12)
  let t ← subI64C (BitVec.ofNat f64.w nz) 12#f64.w
  pure (ey - (t <<< 52))

/-- `hypot` and `cr_hypot`, hypot.rs 24-135 -/
def hypot (H : HypotOps) (chk : Bool) (x y : BitVec f64.w) : M (BitVec f64.w) := do
  let xi := x
  let yi := y
  let emsk := f64.expMask
  let ex := xi &&& emsk
  let ey := yi &&& emsk
  let x := x &&& ~~~f64.signMask
  let y := y &&& ~~~f64.signMask
  if ex = emsk ∨ ey = emsk then do
    let wx := xi <<< 1
    let wy := yi <<< 1
    let wm := emsk <<< 1
    let one_inf := decide (wx = wm) ^^ decide (wy = wm)
    let one_nan := f64.isNan x ^^ f64.isNan y
    if one_inf && one_nan then pure f64.expMask
    else pure (H.N.add x y)
  else do
    -- `x.max(y)`, `x.min(y)`: neither is a NaN and both have a clear sign bit
    let u := if f64.lt x y then y else x
    let v := if f64.lt x y then x else y
    if v >>> 52 = 0#f64.w then
      if v = 0#f64.w then pure u
      else if u >>> 52 = 0#f64.w then
        if u = 0#f64.w then pure 0#f64.w
        else denorm H u v
      else do
        let yd ← renorm v
        if u - yd > 27#f64.w <<< 52 then H.fma 0x3e40000000000000#f64.w v u
        else main H chk u yd
    else if u - v > 27#f64.w <<< 52 then H.fma 0x3e40000000000000#f64.w v u
    else main H chk u v

end Hypot
end Verif
