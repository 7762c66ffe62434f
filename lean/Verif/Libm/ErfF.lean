import Verif.Libm.Exp
/-!
# Model of `erff` and `erfcf`

libm/src/math/erff.rs. The decimal constants are given by their bit patterns. The polynomials, written out in the code, are lists of
coefficients evaluated by `hor` in the same order of operations.
-/
namespace Verif
namespace ErfF

/-- `f32` -/
abbrev S := BitVec f32.w

/-- `1.0` -/
def one : S := 0x3f800000#f32.w
/-- `2.0` -/
def two : S := 0x40000000#f32.w
/-- `0.5`, erff.rs 209 -/
def half : S := 0x3f000000#f32.w
/-- `0.125`, erff.rs 154 -/
def eighth : S := 0x3e000000#f32.w
/-- `8.0`, erff.rs 154 -/
def eight : S := 0x41000000#f32.w
/-- `0.5625`, erff.rs 125 -/
def c5625 : S := 0x3f100000#f32.w
/-- `x1p_120`, erff.rs 166, 220 -/
def tiny : S := 0x03800000#f32.w
/-- `ERX`, erff.rs 18 -/
def ERX : S := 0x3f58560b#f32.w
/-- `EFX8`, erff.rs 22 -/
def EFX8 : S := 0x3f8375d4#f32.w

/-- `PP0` to `PP4`, erff.rs 23-27 -/
def PP : List S := [0x3e0375d4#f32.w, 0xbea66beb#f32.w, 0xbce9528f#f32.w, 0xbbbd1489#f32.w, 0xb7c756b1#f32.w]

/-- `1.0`, `QQ1` to `QQ5`, erff.rs 28-32 -/
def QQ : List S := [0x3f800000#f32.w, 0x3ecbbbce#f32.w, 0x3d852a63#f32.w, 0x3ba68116#f32.w, 0x390aee49#f32.w, 0xb684e21a#f32.w]

/-- `PA0` to `PA6`, erff.rs 36-42 -/
def PA : List S := [0xbb1acdc6#f32.w, 0x3ed46805#f32.w, 0xbebe9208#f32.w, 0x3ea2fe54#f32.w, 0xbde31cc2#f32.w, 0x3d1151b3#f32.w, 0xbb0df9c0#f32.w]

/-- `1.0`, `QA1` to `QA6`, erff.rs 43-48 -/
def QA : List S := [0x3f800000#f32.w, 0x3dd9f331#f32.w, 0x3f0a5785#f32.w, 0x3d931ae7#f32.w, 0x3e013307#f32.w, 0x3c5f6e13#f32.w, 0x3c445aa3#f32.w]

/-- `RA0` to `RA7`, erff.rs 52-59 -/
def RA : List S := [0xbc21a093#f32.w, 0xbf31a0b7#f32.w, 0xc128f022#f32.w, 0xc2798057#f32.w, 0xc322658c#f32.w, 0xc3389ae7#f32.w, 0xc2a2932b#f32.w, 0xc11d077e#f32.w]

/-- `1.0`, `SA1` to `SA8`, erff.rs 60-67 -/
def SA : List S := [0x3f800000#f32.w, 0x419d35ce#f32.w, 0x4309a863#f32.w, 0x43d9486f#f32.w, 0x442158c9#f32.w, 0x43d6810b#f32.w, 0x42d9451f#f32.w, 0x40d23f7c#f32.w, 0xbd777f97#f32.w]

/-- `RB0` to `RB6`, erff.rs 71-77 -/
def RB : List S := [0xbc21a092#f32.w, 0xbf4c9dd4#f32.w, 0xc18e104b#f32.w, 0xc320a2ea#f32.w, 0xc41f6441#f32.w, 0xc480230b#f32.w, 0xc3f1c275#f32.w]

/-- `1.0`, `SB1` to `SB7`, erff.rs 78-84 -/
def SB : List S := [0x3f800000#f32.w, 0x41f2b459#f32.w, 0x43a2e571#f32.w, 0x44c01759#f32.w, 0x4547fdbb#f32.w, 0x451f90ce#f32.w, 0x43ed43a7#f32.w, 0xc1b38712#f32.w]

section
variable (N : FPU f32)

/-- `c0 + s * (c1 + s * (...))` -/
def hor (s : S) : List S → S
  | [] => 0#f32.w
  | [c] => c
  | c :: l => N.add c (N.mul s (hor s l))

/-- the quotient of two polynomials -/
def rat (p q : List S) (s : S) : S := N.div (hor N s p) (hor N s q)

/-- `erfc1`, erff.rs 86-95 -/
def erfc1 (x : S) : S :=
  let s := N.sub (f32.fabs x) one
  N.sub (N.sub one ERX) (rat N PA QA s)

/-- `f32::from_bits(ix & 0xffffe000)`, erff.rs 123 -/
def mask (x : S) : S := x &&& 0xffffe000#f32.w

/-- `erfc2`, erff.rs 97-126; the two quotients of the branches are taken here -/
def erfc2 (ix : Nat) (x : S) : M S :=
  if ix < 0x3fa00000 then pure (erfc1 N x)
  else do
    let x := f32.fabs x
    let s := N.div one (N.mul x x)
    let q := if ix < 0x4036db6d then rat N RA SA s else rat N RB SB s
    let z := mask x
    let a ← Exp.F32.expf N (N.sub (N.mul (f32.neg z) z) c5625)
    let b ← Exp.F32.expf N (N.add (N.mul (N.sub z x) (N.add z x)) q)
    pure (N.div (N.mul a b) x)

/-- `sign as f32` -/
def sgn (sign : Nat) : S := if sign = 0 then 0#f32.w else one

/-- `erff`, erff.rs 134-171 -/
def erff (x : S) : M S :=
  let sign := x.toNat >>> 31
  let ix := x.toNat &&& 0x7fffffff
  if ix ≥ 0x7f800000 then pure (N.add (N.sub one (N.mul two (sgn sign))) (N.div one x))
  else if ix < 0x3f580000 then
    if ix < 0x31800000 then pure (N.mul eighth (N.add (N.mul eight x) (N.mul EFX8 x)))
    else pure (N.add x (N.mul x (rat N PP QQ (N.mul x x))))
  else do
    let y ← if ix < 0x40c00000 then do pure (N.sub one (← erfc2 N ix x)) else pure (N.sub one tiny)
    pure (if sign ≠ 0 then f32.neg y else y)

/-- `erfcf`, erff.rs 179-226 -/
def erfcf (x : S) : M S :=
  let sign := x.toNat >>> 31
  let ix := x.toNat &&& 0x7fffffff
  if ix ≥ 0x7f800000 then pure (N.add (N.mul two (sgn sign)) (N.div one x))
  else if ix < 0x3f580000 then
    if ix < 0x23800000 then pure (N.sub one x)
    else
      let y := rat N PP QQ (N.mul x x)
      if sign ≠ 0 ∨ ix < 0x3e800000 then pure (N.sub one (N.add x (N.mul x y)))
      else pure (N.sub half (N.add (N.sub x half) (N.mul x y)))
  else if ix < 0x41e00000 then
    if sign ≠ 0 then do pure (N.sub two (← erfc2 N ix x)) else erfc2 N ix x
  else if sign ≠ 0 then pure (N.sub two tiny) else pure (N.mul tiny tiny)
end
end ErfF
end Verif
