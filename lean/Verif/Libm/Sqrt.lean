import Verif.Libm.RoundNearest
import Verif.Int.ModularProofs
/-!
# Model of `sqrt_round` (libm/src/math/generic/sqrt.rs)

`F::Int`, `F::ISet1`, `F::ISet2` are given by their widths and double-width operations (`SqrtCfg`). `enum Exp` (276-281) is an
`Option`: `some` for `Shifted`, `none` for `NoShift`. Floating-point exception flags raised by the native operators are not
modelled.
-/
namespace Verif

/-- `RSQRT_TAB`, sqrt.rs 335-352 -/
def rsqrtTab : List Nat := [
  0xb451, 0xb2f0, 0xb196, 0xb044, 0xaef9, 0xadb6, 0xac79, 0xab43, 0xaa14, 0xa8eb, 0xa7c8, 0xa6aa, 0xa592, 0xa480, 0xa373, 0xa26b,
  0xa168, 0xa06a, 0x9f70, 0x9e7b, 0x9d8a, 0x9c9d, 0x9bb5, 0x9ad1, 0x99f0, 0x9913, 0x983a, 0x9765, 0x9693, 0x95c4, 0x94f8, 0x9430,
  0x936b, 0x92a9, 0x91ea, 0x912e, 0x9075, 0x8fbe, 0x8f0a, 0x8e59, 0x8daa, 0x8cfe, 0x8c54, 0x8bac, 0x8b07, 0x8a64, 0x89c4, 0x8925,
  0x8889, 0x87ee, 0x8756, 0x86c0, 0x862b, 0x8599, 0x8508, 0x8479, 0x83ec, 0x8361, 0x82d8, 0x8250, 0x81c9, 0x8145, 0x80c2, 0x8040,
  0xff02, 0xfd0e, 0xfb25, 0xf947, 0xf773, 0xf5aa, 0xf3ea, 0xf234, 0xf087, 0xeee3, 0xed47, 0xebb3, 0xea27, 0xe8a3, 0xe727, 0xe5b2,
  0xe443, 0xe2dc, 0xe17a, 0xe020, 0xdecb, 0xdd7d, 0xdc34, 0xdaf1, 0xd9b3, 0xd87b, 0xd748, 0xd61a, 0xd4f1, 0xd3cd, 0xd2ad, 0xd192,
  0xd07b, 0xcf69, 0xce5b, 0xcd51, 0xcc4a, 0xcb48, 0xca4a, 0xc94f, 0xc858, 0xc764, 0xc674, 0xc587, 0xc49d, 0xc3b7, 0xc2d4, 0xc1f4,
  0xc116, 0xc03c, 0xbf65, 0xbe90, 0xbdbe, 0xbcef, 0xbc23, 0xbb59, 0xba91, 0xb9cc, 0xb90a, 0xb84a, 0xb78c, 0xb6d0, 0xb617, 0xb560
]

/-- `wmulh`, sqrt.rs 224-226 -/
def wmulh {w} (O : DOps w) (a b : BitVec w) : M (BitVec w) := do
  let d ← O.widenMul a b
  pure (O.hi d)

/-- loop variables of `goldschmidt` -/
structure Gold (w : Nat) where
  r : BitVec w
  s : BitVec w
  u : BitVec w

/-- loop body of `goldschmidt`, sqrt.rs 246-270 -/
def goldStep {w} (O : DOps w) (count : Nat) (final : Bool) (three : BitVec w) (i : Nat) (g : Gold w) : M (Gold w) := do
  let s ← wmulh O g.s g.u
  let s ← (if decide (i > 0) && (!final || decide (i + 1 < count)) then shlC s 1 else pure s)
  let d ← wmulh O s g.r
  let u := three - d
  let r ← wmulh O g.r u
  let r ← shlC r 1
  pure ⟨r, s, u⟩

/-- iterations `i, ..., i + n - 1` -/
def goldLoop {w} (O : DOps w) (count : Nat) (final : Bool) (three : BitVec w) : Nat → Nat → Gold w → M (Gold w)
  | _, 0, g => pure g
  | i, n + 1, g => do
    let g ← goldStep O count final three i g
    goldLoop O count final three (i + 1) n g

/-- `goldschmidt`, sqrt.rs 239-273 -/
def goldschmidt {w} (O : DOps w) (r s : BitVec w) (count : Nat) (final : Bool) : M (BitVec w × BitVec w) := do
  let three ← shlC 3#w (w - 2)
  let g ← goldLoop O count final three 0 count ⟨r, s, r⟩
  pure (g.r, g.s)

/-- `SqrtHelper`, sqrt.rs 284-330, with the double-width operations of the three integer types -/
structure SqrtCfg (F : Fmt) where
  w1 : Nat
  w2 : Nat
  O1 : DOps w1
  O2 : DOps w2
  O : DOps F.w
  n1 : Nat
  n2 : Nat
  n3 : Nat

/-- sqrt.rs 298-304 -/
def SqrtCfg.f16 : SqrtCfg f16 := ⟨16, 16, DOps.prim 16, DOps.prim 16, DOps.prim 16, 0, 0, 2⟩
/-- sqrt.rs 306-311 -/
def SqrtCfg.f32 : SqrtCfg f32 := ⟨32, 32, DOps.prim 32, DOps.prim 32, DOps.prim 32, 0, 0, 3⟩
/-- sqrt.rs 313-319 -/
def SqrtCfg.f64 : SqrtCfg f64 := ⟨32, 32, DOps.prim 32, DOps.prim 32, DOps.prim 64, 0, 2, 2⟩
/-- sqrt.rs 321-329 -/
def SqrtCfg.f128 : SqrtCfg f128 := ⟨32, 64, DOps.prim 32, DOps.prim 64, DOps.wide 64, 1, 2, 2⟩

namespace Fmt
variable (F : Fmt)

/-- `NAN`, float_traits.rs 262-266 -/
def sqrtNan : BitVec F.w := F.qnanRep

/-- sqrt.rs 62-75: the shifted exponent field, and whether the argument needs special treatment -/
def sqrtTop (ix : BitVec F.w) : M (Option (BitVec 32) × Bool) := do
  if F.w ≤ 32 then do
    let exp_lsb ← shlC 1#F.w F.s
    let lim ← subC F.expMask exp_lsb
    pure (none, decide (lim ≤ ix - exp_lsb))
  else do
    let t ← shrC ix F.s
    let top ← castC 32 t
    let lim ← nsubC F.expSat 1
    pure (some top, decide (lim ≤ (top - 1#32).toNat))

/-- sqrt.rs 95-107: scale a subnormal -/
def sqrtScale (N : FPU F) (x : BitVec F.w) (top : Option (BitVec 32)) : M (BitVec F.w × Option (BitVec 32)) := do
  let scaled := N.mul x (F.fromParts false (F.s + F.bias) 0#F.w)
  match top with
  | some _ => pure (scaled, some (BitVec.ofNat 32 (F.ex scaled) - BitVec.ofNat 32 F.s))
  | none => do
    let t ← shlC (BitVec.ofNat 32 F.s) F.s
    let t ← castC F.w t
    pure (scaled - t, none)

/-- sqrt.rs 110-142: the fixed-point argument in `[1, 4)` and the exponent field of the result in place -/
def sqrtReduce (ix : BitVec F.w) (top : Option (BitVec 32)) : M (BitVec F.w × (BitVec 32 ⊕ BitVec F.w)) := do
  match top with
  | some e => do
    let m ← shlC (ix ||| F.implicitBit) F.e
    let even := decide (e &&& 1#32 ≠ 0#32)
    let m ← (if even then shrC m 1 else pure m)
    let e := e + BitVec.ofNat 32 (F.expSat >>> 1)
    let e ← shrC e 1
    pure (m, .inl e)
  | none => do
    let one_s ← shlC 1#F.w F.s
    let even := decide (ix &&& one_s ≠ 0#F.w)
    let e ← shrC ix 1
    let t ← shrC F.signMask 1
    let t ← shrC (F.expMask ^^^ t) 1
    let e ← addC e t
    let e := e &&& F.expMask
    let m1 ← shlC ix F.e
    let m1 := m1 ||| F.signMask
    let m0 ← shlC ix (F.e - 1)
    let m0 := m0 &&& ~~~F.signMask
    pure (if even then m0 else m1, .inr e)

/-- sqrt.rs 144-163: the three sets of iterations -/
def sqrtIter (C : SqrtCfg F) (ix m_u2 : BitVec F.w) : M (BitVec F.w) := do
  let t ← shrC ix (F.s - 6)
  let t ← castC 32 t
  let i := t.toNat &&& 0b1111111
  let r1 ← castU C.w1 (rsqrtTab.getD i 0)
  let r1 ← shlC r1 (C.w1 - 16)
  let s1 ← shrC m_u2 (F.w - C.w1)
  let s1 ← castC C.w1 s1
  let (r1, _) ← goldschmidt C.O1 r1 s1 C.n1 false
  let r2 ← shlC (r1.setWidth C.w2 : BitVec C.w2) (C.w2 - C.w1)
  let s2 ← shrC m_u2 (F.w - C.w2)
  let s2 ← castC C.w2 s2
  let (r2, _) ← goldschmidt C.O2 r2 s2 C.n2 false
  let r ← shlC (r2.setWidth F.w : BitVec F.w) (F.w - C.w2)
  let (_, s) ← goldschmidt C.O r m_u2 C.n3 true
  pure s

/-- sqrt.rs 165-195: final rounding. Returns the significand and `d1`. -/
def sqrtFinish (m_u2 s_u2 : BitVec F.w) : M (BitVec F.w × BitVec F.w) := do
  let m ← shrC s_u2 (F.e - 2)
  let shift ← nsubC (2 * F.s) (F.w - 2)
  let t ← shlC m_u2 shift
  let d0 := t - m * m
  let d1 := m - d0
  let t ← shrC d1 (F.w - 1)
  let m ← addC m t
  pure (m &&& F.sigMask, d1)

/-- sqrt.rs 202-218: the addition that only serves to raise the inexact exception -/
def sqrtInexact (N : FPU F) (m d1 : BitVec F.w) : BitVec F.w :=
  if F.w > 16 then
    let d2 := d1 + m + 1#F.w
    let tiny := if d2 = 0#F.w then 0#F.w else F.implicitBit
    let tiny := tiny ||| ((d1 ^^^ d2) &&& F.signMask)
    N.add m tiny
  else m

/-- `sqrt_round`, sqrt.rs 49-221 -/
def sqrtRound (N : FPU F) (C : SqrtCfg F) (x : BitVec F.w) : M (BitVec F.w × Status) := do
  let (top, special) ← F.sqrtTop x
  let t ← shlC x 1
  if special = true ∧ t = 0#F.w then pure (x, Status.OK)
  else if special = true ∧ x = F.expMask then pure (x, Status.OK)
  else if special = true ∧ F.expMask < x then pure (F.sqrtNan, Status.INVALID)
  else do
    let (ix, top) ← (if special = true then F.sqrtScale N x top else pure (x, top))
    let (m_u2, exp) ← F.sqrtReduce ix top
    let s ← F.sqrtIter C ix m_u2
    let (m, d1) ← F.sqrtFinish m_u2 s
    let m ← (match exp with
      | .inl e => do
        let e ← castC F.w e
        let e ← shlC e F.s
        pure (m ||| e)
      | .inr e => pure (m ||| e))
    pure (F.sqrtInexact N m d1, Status.OK)

end Fmt
end Verif
