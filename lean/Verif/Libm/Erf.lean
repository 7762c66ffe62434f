import Verif.Libm.Exp
import Verif.Libm.Asin
/-!
# Model of `erf` and `erfc`

libm/src/math/erf.rs. The decimal constants are given by their bit patterns. The polynomials, written out in the code, are lists of
coefficients evaluated by `hor` in the same order of operations.
-/
namespace Verif
namespace Erf

/-- `f64` -/
abbrev D := BitVec f64.w

/-- `1.0` -/
def one : D := 0x3ff0000000000000#f64.w
/-- `2.0` -/
def two : D := 0x4000000000000000#f64.w
/-- `0.5`, erf.rs 298 -/
def half : D := 0x3fe0000000000000#f64.w
/-- `0.125`, erf.rs 243 -/
def eighth : D := 0x3fc0000000000000#f64.w
/-- `8.0`, erf.rs 243 -/
def eight : D := 0x4020000000000000#f64.w
/-- `0.5625`, erf.rs 214 -/
def c5625 : D := 0x3fe2000000000000#f64.w
/-- `x1p_1022`, erf.rs 255, 309 -/
def tiny : D := 0x0010000000000000#f64.w
/-- `ERX`, erf.rs 107 -/
def ERX : D := 0x3feb0ac160000000#f64.w
/-- `EFX8`, erf.rs 111 -/
def EFX8 : D := 0x3ff06eba8214db69#f64.w

/-- `PP0` to `PP4`, erf.rs 112-116 -/
def PP : List D := [0x3fc06eba8214db68#f64.w, 0xbfd4cd7d691cb913#f64.w, 0xbf9d2a51dbd7194f#f64.w, 0xbf77a291236668e4#f64.w, 0xbef8ead6120016ac#f64.w]

/-- `1.0`, `QQ1` to `QQ5`, erf.rs 117-121 -/
def QQ : List D := [0x3ff0000000000000#f64.w, 0x3fd97779cddadc09#f64.w, 0x3fb0a54c5536ceba#f64.w, 0x3f74d022c4d36b0f#f64.w, 0x3f215dc9221c1a10#f64.w, 0xbed09c4342a26120#f64.w]

/-- `PA0` to `PA6`, erf.rs 125-131 -/
def PA : List D := [0xbf6359b8bef77538#f64.w, 0x3fda8d00ad92b34d#f64.w, 0xbfd7d240fbb8c3f1#f64.w, 0x3fd45fca805120e4#f64.w, 0xbfbc63983d3e28ec#f64.w, 0x3fa22a36599795eb#f64.w, 0xbf61bf380a96073f#f64.w]

/-- `1.0`, `QA1` to `QA6`, erf.rs 132-137 -/
def QA : List D := [0x3ff0000000000000#f64.w, 0x3fbb3e6618eee323#f64.w, 0x3fe14af092eb6f33#f64.w, 0x3fb2635cd99fe9a7#f64.w, 0x3fc02660e763351f#f64.w, 0x3f8bedc26b51dd1c#f64.w, 0x3f888b545735151d#f64.w]

/-- `RA0` to `RA7`, erf.rs 141-148 -/
def RA : List D := [0xbf843412600d6435#f64.w, 0xbfe63416e4ba7360#f64.w, 0xc0251e0441b0e726#f64.w, 0xc04f300ae4cba38d#f64.w, 0xc0644cb184282266#f64.w, 0xc067135cebccabb2#f64.w, 0xc054526557e4d2f2#f64.w, 0xc023a0efc69ac25c#f64.w]

/-- `1.0`, `SA1` to `SA8`, erf.rs 149-156 -/
def SA : List D := [0x3ff0000000000000#f64.w, 0x4033a6b9bd707687#f64.w, 0x4061350c526ae721#f64.w, 0x407b290dd58a1a71#f64.w, 0x40842b1921ec2868#f64.w, 0x407ad02157700314#f64.w, 0x405b28a3ee48ae2c#f64.w, 0x401a47ef8e484a93#f64.w, 0xbfaeeff2ee749a62#f64.w]

/-- `RB0` to `RB6`, erf.rs 160-166 -/
def RB : List D := [0xbf84341239e86f4a#f64.w, 0xbfe993ba70c285de#f64.w, 0xc031c209555f995a#f64.w, 0xc064145d43c5ed98#f64.w, 0xc083ec881375f228#f64.w, 0xc09004616a2e5992#f64.w, 0xc07e384e9bdc383f#f64.w]

/-- `1.0`, `SB1` to `SB7`, erf.rs 167-173 -/
def SB : List D := [0x3ff0000000000000#f64.w, 0x403e568b261d5190#f64.w, 0x40745cae221b9f0a#f64.w, 0x409802eb189d5118#f64.w, 0x40a8ffb7688c246a#f64.w, 0x40a3f219cedf3be6#f64.w, 0x407da874e79fe763#f64.w, 0xc03670e242712d62#f64.w]

section
variable (N : FPU f64)

/-- `c0 + s * (c1 + s * (...))` -/
def hor (s : D) : List D → D
  | [] => 0#f64.w
  | [c] => c
  | c :: l => N.add c (N.mul s (hor s l))

/-- the quotient of two polynomials -/
def rat (p q : List D) (s : D) : D := N.div (hor N s p) (hor N s q)

/-- `erfc1`, erf.rs 175-185 -/
def erfc1 (x : D) : D :=
  let s := N.sub (f64.fabs x) one
  N.sub (N.sub one ERX) (rat N PA QA s)

/-- `erfc2`, erf.rs 187-215; the two quotients of the branches of 199-211 are taken here -/
def erfc2 (ix : Nat) (x : D) : M D :=
  if ix < 0x3ff40000 then pure (erfc1 N x)
  else do
    let x := f64.fabs x
    let s := N.div one (N.mul x x)
    let q := if ix < 0x4006db6d then rat N RA SA s else rat N RB SB s
    let z := Asin.clearLow x
    let a ← Exp.exp N (N.sub (N.mul (f64.neg z) z) c5625)
    let b ← Exp.exp N (N.add (N.mul (N.sub z x) (N.add z x)) q)
    pure (N.div (N.mul a b) x)

/-- `sign as f64` -/
def sgn (sign : Nat) : D := if sign = 0 then 0#f64.w else one

/-- `erf`, erf.rs 223-260 -/
def erf (x : D) : M D :=
  let hw := x.toNat >>> 32
  let sign := hw >>> 31
  let ix := hw &&& 0x7fffffff
  if ix ≥ 0x7ff00000 then pure (N.add (N.sub one (N.mul two (sgn sign))) (N.div one x))
  else if ix < 0x3feb0000 then
    if ix < 0x3e300000 then pure (N.mul eighth (N.add (N.mul eight x) (N.mul EFX8 x)))
    else pure (N.add x (N.mul x (rat N PP QQ (N.mul x x))))
  else do
    let y ← if ix < 0x40180000 then do pure (N.sub one (← erfc2 N ix x)) else pure (N.sub one tiny)
    pure (if sign ≠ 0 then f64.neg y else y)

/-- `erfc`, erf.rs 268-316 -/
def erfc (x : D) : M D :=
  let hw := x.toNat >>> 32
  let sign := hw >>> 31
  let ix := hw &&& 0x7fffffff
  if ix ≥ 0x7ff00000 then pure (N.add (N.mul two (sgn sign)) (N.div one x))
  else if ix < 0x3feb0000 then
    if ix < 0x3c700000 then pure (N.sub one x)
    else
      let y := rat N PP QQ (N.mul x x)
      if sign ≠ 0 ∨ ix < 0x3fd00000 then pure (N.sub one (N.add x (N.mul x y)))
      else pure (N.sub half (N.add (N.sub x half) (N.mul x y)))
  else if ix < 0x403c0000 then
    if sign ≠ 0 then do pure (N.sub two (← erfc2 N ix x)) else erfc2 N ix x
  else if sign ≠ 0 then pure (N.sub two tiny) else pure (N.mul tiny tiny)
end
end Erf
end Verif
