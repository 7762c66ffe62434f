import Verif.Libm.Native
import Verif.Libm.RoundInt
import Verif.Libm.Log
/-!
# Model of `cbrt`

libm/src/math/cbrt.rs, for `round = Round::Nearest` (what `cbrt` passes, line 13; the parts of `cbrt_round` that are run only for the directed roundings,
lines 164-187, and the status, always empty, are left out).

`fma` is `Float::fma` of `f64`: an instruction, or `fma_round` of the crate. Integers are natural numbers; the additions, subtractions and shifts that are
checked in a debug build fail on overflow, the `wrapping_` ones are reduced.
-/
namespace Verif
namespace CbrtD

/-- `f64` -/
abbrev D := BitVec f64.w

/-- `ESCALE`, cbrt.rs 17-21 -/
def ESCALE : List D := [0x3ff0000000000000#f64.w, 0x3ff428a2f98d728b#f64.w, 0x3ff965fea53d6e3d#f64.w]
/-- `C`, cbrt.rs 25-30 -/
def C0 : D := 0x3fe1b0babccfef9c#f64.w
def C1 : D := 0x3fe2c9a3e94d1da5#f64.w
def C2 : D := 0xbfc4dc30b1a1ddba#f64.w
def C3 : D := 0x3f97a8d3e4ec9b07#f64.w
/-- `u0`, `u1`, cbrt.rs 32-33 -/
def u0 : D := 0x3fd5555555555555#f64.w
def u1 : D := 0x3fcc71c71c71c71c#f64.w
/-- `rsc`, cbrt.rs 35 -/
def rsc : List D := [0x3ff0000000000000#f64.w, 0xbff0000000000000#f64.w, 0x3fe0000000000000#f64.w, 0xbfe0000000000000#f64.w, 0x3fd0000000000000#f64.w,
  0xbfd0000000000000#f64.w]
/-- `off[Round::Nearest as usize]`, cbrt.rs 37 -/
def off : D := 0x3ca0000000000000#f64.w
/-- `1.0` -/
def one : D := 0x3ff0000000000000#f64.w
/-- `2^-52`, `2^-75`, `2^-98`, `2^-60` -/
def p52 : D := 0x3cb0000000000000#f64.w
def p75 : D := 0x3b40000000000000#f64.w
def p98 : D := 0x39d0000000000000#f64.w
def p60 : D := 0x3c30000000000000#f64.w

/-- a checked `u64` addition -/
def u64C (x : Nat) : M Nat := if x < 2 ^ 64 then .ok x else .error .overflow

/-- the significand and the exponent of a number that is not 0, an infinity or NaN; `none` for these. cbrt.rs 41-63 -/
def decode (hx : Nat) : M (Option (Nat × Nat)) :=
  let mant := hx &&& (2 ^ 52 - 1)
  let e := (hx >>> 52) % 2 ^ 32 &&& 0x7ff
  if (e + 1) &&& 0x7ff < 2 then
    let ix := hx &&& (2 ^ 63 - 1)
    if e = 0x7ff ∨ ix = 0 then .ok none
    else do
      -- `ix` is not 0: it has `63 - log2 ix` leading zeros
      let nz ← nsubC (63 - Nat.log2 ix) 11
      let n1 ← nsubC nz 1
      if nz < 64 then .ok (some ((mant <<< nz) % 2 ^ 64 &&& (2 ^ 52 - 1), (e + 2 ^ 32 - n1) % 2 ^ 32))
      else .error .overflow
  else .ok (some (mant, e))

section
variable (N : FPU f64) (fma : D → D → D → M D)

/-- the approximation by a polynomial and one cubic step, cbrt.rs 88-102 -/
def start (z r isc : D) : D :=
  let z2 := N.mul z z
  let c0 := N.add C0 (N.mul z C1)
  let c2 := N.add C2 (N.mul z C3)
  let y := N.add c0 (N.mul z2 c2)
  let y2 := N.mul y y
  let h := N.sub (N.mul y2 (N.mul y r)) one
  let y := N.sub y (N.mul (N.mul h y) (N.sub u0 (N.mul u1 h)))
  N.mul y isc

/-- a linear step: the result and its error `dy`, cbrt.rs 107-121 and 138-146 -/
def newton (zz rr y : D) : M (D × D) := do
  let y2 := N.mul y y
  let y2l ← fma y y (f64.neg y2)
  let y3 := N.mul y2 y
  let t ← fma y y2 (f64.neg y3)
  let y3l := N.add t (N.mul y y2l)
  let h := N.mul (N.add (N.sub y3 zz) y3l) rr
  let dy := N.mul h (N.mul y u0)
  let y1 := N.sub y dy
  let dy := N.sub (N.sub y y1) dy
  pure (y1, dy)

/-- is `y1 + dy` near the middle of two numbers? cbrt.rs 125-135 and 147-151 -/
def tight (dy t : D) : Bool :=
  let ady := f64.fabs dy
  let ady0 := f64.fabs (N.sub ady off)
  let ady1 := f64.fabs (N.sub ady (N.add p52 off))
  f64.lt ady0 t || f64.lt ady1 t

/-- the two worst cases, cbrt.rs 153-163 -/
def worst (zz y1 : D) : D :=
  let azz := f64.fabs zz
  let y1 := if f64.feq azz 0x4009b78223aa307c#f64.w then f64.copysign 0x3ff79d15d0e8d59c#f64.w zz else y1
  if f64.feq azz 0x401a202bfc89ddff#f64.w then f64.copysign 0x3ffde87aa837820f#f64.w zz else y1

/-- cbrt.rs 107-189 -/
def refine (zz rr y : D) : M (D × D) := do
  let p ← newton N fma zz rr y
  if tight N p.2 p75 then do
    let q ← newton N fma zz rr p.1
    if tight N q.2 p98 then pure (worst zz q.1, q.2) else pure q
  else pure p

/-- the scaling by a power of two, and a correction of results near a number with few bits, cbrt.rs 191-205 -/
def finish (zz y1 dy : D) (et : Nat) : M D := do
  let cvt3 := (y1.toNat + (((et + 2 ^ 32 - 342) % 2 ^ 32 + 2 ^ 32 - 1023) % 2 ^ 32) <<< 52 % 2 ^ 64) % 2 ^ 64
  let m0 := cvt3 <<< 30 % 2 ^ 64
  let m1 := m0 >>> 63
  if m0 ^^^ m1 ≤ 2 ^ 30 then do
    let cvt4 ← u64C (y1.toNat + 164 <<< 15)
    let cvt4 := cvt4 &&& 0xffffffffffff0000
    if f64.lt (f64.fabs (N.sub (N.sub (BitVec.ofNat f64.w cvt4) y1) dy)) p60 || f64.feq (f64.fabs zz) one then do
      let cvt3 ← u64C (cvt3 + 1 <<< 15)
      pure (BitVec.ofNat f64.w (cvt3 &&& 0xffffffffffff0000))
    else pure (BitVec.ofNat f64.w cvt3)
  else pure (BitVec.ofNat f64.w cvt3)

/-- `cbrt`, cbrt.rs 12-14 and 16-208 -/
def cbrt (x : D) : M D := do
  let hx := x.toNat
  let sign := hx >>> 63
  match ← decode hx with
  | none => pure (N.add x x)
  | some (mant, e) => do
    let e := (e + 3072) % 2 ^ 32
    let cvt1 := mant ||| 0x3ff <<< 52
    let et := e / 3
    let it := e % 3
    let cvt5 ← u64C (cvt1 + it <<< 52)
    let zz := BitVec.ofNat f64.w (cvt5 ||| sign <<< 63)
    let isc ← Pio2.rd 3 (fun i => ESCALE.getD i 0) it
    let isc := BitVec.ofNat f64.w (isc.toNat ||| sign <<< 63)
    let z := BitVec.ofNat f64.w cvt1
    let r := N.div one z
    let sc ← Pio2.rd 6 (fun i => rsc.getD i 0) (it <<< 1 ||| sign)
    let rr := N.mul r sc
    let p ← refine N fma zz rr (start N z r isc)
    finish N zz p.1 p.2 et
end
end CbrtD
end Verif
