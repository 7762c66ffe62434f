import Verif.Libm.PiDist
import Verif.Libm.Scalbn
import Verif.Libm.RoundInt
import Verif.Float.Conv
/-!
# Model of the reduction of an argument modulo `π/2` (libm/src/math/{rem_pio2_large,rem_pio2,rem_pio2f}.rs)

Arrays are functions on indices, with their length given at every access: `rd n a i` and `wr n a i v` fail when `i ≥ n`. The macro
`i!` (mod.rs 9-60) is `get_unchecked` in release builds, so such an access is undefined behaviour there, and a panic in debug builds.

`i32` values are integers, with `i32C` failing on overflow; `usize` subtractions fail when negative. Sums of `usize` values are not
checked for overflow: all of them are used as indices, and an index above 690 fails anyway. `as i32` and `as f64` are modelled by the
conversions of the crate (`C31`, `C32`), which agree with the native ones. `floor` and `scalbn` are the models of `C34` and `C42`.

`p64` says whether pointers have 64 bits: it selects the table of digits, and whether `e0` is asserted to be at most 16360.
-/
namespace Verif
namespace Pio2

/-- an `f64` -/
abbrev D := BitVec f64.w

/-- `i!(a, i)`, mod.rs 9-60 -/
def rd {α} (n : Nat) (a : Nat → α) (i : Nat) : M α := if i < n then .ok (a i) else .error .ub
/-- `i!(a, i, =, v)`, mod.rs 9-60 -/
def wr {α} (n : Nat) (a : Nat → α) (i : Nat) (v : α) : M (Nat → α) := if i < n then .ok (Function.update a i v) else .error .ub

/-- `for i in s..s + c` -/
def forUp {σ} (f : Nat → σ → M σ) : Nat → Nat → σ → M σ
  | 0, _, s => .ok s
  | c + 1, i, s => do
    let s ← f i s
    forUp f c (i + 1) s
/-- `for i in (0..c).rev()` -/
def forDn {σ} (f : Nat → σ → M σ) : Nat → σ → M σ
  | 0, s => .ok s
  | c + 1, s => do
    let s ← f c s
    forDn f c s

/-- `x as i32` -/
def toI32 (x : D) : M Int := do
  let r ← f64.floatToSigned 32 x
  pure r.toInt
/-- `i as f64` of an `i32` -/
def ofI32 (i : Int) : M D := f64.signedConv Fmt.u32ToF64 (BitVec.ofInt 32 i)
/-- `a >> n` of an `i32` -/
def sarI (a n : Int) : M Int := if 0 ≤ n ∧ n < 32 then .ok (a / 2 ^ n.toNat) else .error .shift
/-- `a << n` of an `i32` -/
def salI (a n : Int) : M Int := if 0 ≤ n ∧ n < 32 then .ok (i32W (a * 2 ^ n.toNat)) else .error .shift
/-- `a & b` of `i32`s -/
def andI (a b : Int) : Int := (BitVec.ofInt 32 a &&& BitVec.ofInt 32 b).toInt

/-- `floor` -/
def floorD (x : D) : M D := do
  let r ← f64.floorStatus x
  pure r.1

/-- `x1p24`, `x1p_24` and other constants -/
def x1p24 : D := 0x4170000000000000#f64.w
def x1m24 : D := 0x3e70000000000000#f64.w
def c0125 : D := 0x3fc0000000000000#f64.w
def chalf : D := 0x3fe0000000000000#f64.w
def cone : D := 0x3ff0000000000000#f64.w
def ceight : D := 0x4020000000000000#f64.w

/-- `INIT_JK`, rem_pio2_large.rs 19 -/
def INIT_JK (i : Nat) : Nat := [3, 4, 4, 6].getD i 0
/-- `PIO2`, rem_pio2_large.rs 124-133 -/
def PIO2 (i : Nat) : D := [0x3FF921FB40000000#f64.w, 0x3E74442D00000000#f64.w, 0x3CF8469880000000#f64.w, 0x3B78CC5160000000#f64.w,
  0x39F01B8380000000#f64.w, 0x387A252040000000#f64.w, 0x36E3822280000000#f64.w, 0x3569F31D00000000#f64.w].getD i 0#f64.w
/-- length of `IPIO2` -/
def nTab (p64 : Bool) : Nat := if p64 then 690 else 66

section
variable (N : FPU f64) (p64 : Bool)

/-- rem_pio2_large.rs 268-277: `f[0], ..., f[m]` -/
def fInit (jv jx m : Nat) : M (Nat → D) :=
  forUp (fun i f => do
    let j ← i32C ((jv : Int) - jx + i)
    let v ← (if j < 0 then pure 0#f64.w else do
      let t ← rd (nTab p64) ipio2 j.toNat
      ofI32 t)
    wr 20 f i v) (m + 1) 0 (fun _ => 0#f64.w)

/-- rem_pio2_large.rs 281-284, 371-374: `Σ x[j] f[jx + i - j]` -/
def dot (nx : Nat) (x f : Nat → D) (jx i : Nat) : M D :=
  forUp (fun j fw => do
    let a ← rd nx x j
    let k ← nsubC (jx + i) j
    let b ← rd 20 f k
    pure (N.add fw (N.mul a b))) (jx + 1) 0 0#f64.w

/-- rem_pio2_large.rs 280-286: `q[0], ..., q[jk]` -/
def qInit (nx : Nat) (x f : Nat → D) (jx jk : Nat) : M (Nat → D) :=
  forUp (fun i q => do
    let fw ← dot N nx x f jx i
    wr 20 q i fw) (jk + 1) 0 (fun _ => 0#f64.w)

/-- rem_pio2_large.rs 292-299: distill `q` into `iq`; `z` and `iq` are returned -/
def distill (q : Nat → D) (iq : Nat → Int) (jz : Nat) : M (D × (Nat → Int)) := do
  let z ← rd 20 q jz
  let (_, z, iq) ← forDn (fun t (s : Nat × D × (Nat → Int)) => do
    let (i, z, iq) := s
    let k ← toI32 (N.mul x1m24 z)
    let fw ← ofI32 k
    let d ← toI32 (N.sub z (N.mul x1p24 fw))
    let iq ← wr 20 iq i d
    let w ← rd 20 q t
    pure (i + 1, N.add w fw, iq)) jz (0, z, iq)
  pure (z, iq)

/-- rem_pio2_large.rs 302-317: `n`, `ih`, `z`, `iq` -/
def computeN (q0 : Int) (jz : Nat) (z : D) (iq : Nat → Int) : M (Int × Int × D × (Nat → Int)) := do
  let z ← f64.scalbn N z q0
  let fl ← floorD (N.mul z c0125)
  let z := N.sub z (N.mul ceight fl)
  let n ← toI32 z
  let nf ← ofI32 n
  let z := N.sub z nf
  if q0 > 0 then do
    let j ← nsubC jz 1
    let v ← rd 20 iq j
    let s ← i32C (24 - q0)
    let i ← sarI v s
    let n ← i32C (n + i)
    let t ← salI i s
    let v ← i32C (v - t)
    let iq ← wr 20 iq j v
    let s ← i32C (23 - q0)
    let ih ← sarI v s
    pure (n, ih, z, iq)
  else if q0 = 0 then do
    let j ← nsubC jz 1
    let v ← rd 20 iq j
    let ih ← sarI v 23
    pure (n, ih, z, iq)
  else pure (n, if f64.ge z chalf then 2 else 0, z, iq)

/-- rem_pio2_large.rs 319-353: when `ih > 0`, replace the fraction by its complement -/
def complement (q0 : Int) (jz : Nat) (n ih : Int) (z : D) (iq : Nat → Int) : M (Int × D × (Nat → Int)) :=
  if ih > 0 then do
    let n ← i32C (n + 1)
    let (carry, iq) ← forUp (fun i (s : Int × (Nat → Int)) => do
      let (carry, iq) := s
      let j ← rd 20 iq i
      if carry = 0 then
        if j ≠ 0 then do
          let d ← i32C (0x1000000 - j)
          let iq ← wr 20 iq i d
          pure (1, iq)
        else pure (carry, iq)
      else do
        let d ← i32C (0xffffff - j)
        let iq ← wr 20 iq i d
        pure (carry, iq)) jz 0 (0, iq)
    let iq ← (if q0 = 1 then do
        let j ← nsubC jz 1
        let v ← rd 20 iq j
        wr 20 iq j (andI v 0x7fffff)
      else if q0 = 2 then do
        let j ← nsubC jz 1
        let v ← rd 20 iq j
        wr 20 iq j (andI v 0x3fffff)
      else pure iq)
    let z ← (if ih = 2 then do
        let z := N.sub cone z
        if carry ≠ 0 then do
          let t ← f64.scalbn N cone q0
          pure (N.sub z t)
        else pure z
      else pure z)
    pure (n, z, iq)
  else pure (n, z, iq)

/-- rem_pio2_large.rs 363-366: the first `k ≥ 1` with `iq[jk - k] != 0`. After `jk + 1` steps the subtraction fails. -/
def scanK (iq : Nat → Int) (jk : Nat) : Nat → Nat → M Nat
  | 0, _ => .error .fuel
  | f + 1, k => do
    let i ← nsubC jk k
    let v ← rd 20 iq i
    if v = 0 then scanK iq jk f (k + 1) else pure k

/-- rem_pio2_large.rs 356-366: `none` if no recomputation is needed, otherwise the number of terms to add -/
def needMore (jk jz : Nat) (z : D) (iq : Nat → Int) : M (Option Nat) :=
  if f64.feq z 0#f64.w then do
    let _ ← nsubC jz 1
    let j ← forDn (fun t (j : BitVec 32) => do
      let v ← rd 20 iq (jk + t)
      pure (j ||| BitVec.ofInt 32 v)) (jz - jk) 0#32
    if j = 0#32 then do
      let k ← scanK iq jk (jk + 2) 1
      pure (some k)
    else pure none
  else pure none

/-- rem_pio2_large.rs 368-376: add the terms `q[jz+1], ..., q[jz+k]` -/
def moreTerms (nx : Nat) (x : Nat → D) (jv jx jz k : Nat) (f q : Nat → D) : M ((Nat → D) × (Nat → D)) :=
  forUp (fun i (s : (Nat → D) × (Nat → D)) => do
    let (f, q) := s
    let t ← rd (nTab p64) ipio2 (jv + i)
    let v ← ofI32 t
    let f ← wr 20 f (jx + i) v
    let fw ← dot N nx x f jx i
    let q ← wr 20 q i fw
    pure (f, q)) k (jz + 1) (f, q)

/-- rem_pio2_large.rs 290-383: the loop `'recompute`, with a bound on the number of iterations that is shown never to be reached;
`jz`, `n`, `ih`, `z`, `iq` are returned (the new `q` is not: it is overwritten before it is read again) -/
def recompute (nx : Nat) (x : Nat → D) (jv jx jk : Nat) (q0 : Int) :
    Nat → Nat → (Nat → D) → (Nat → D) → (Nat → Int) → M (Nat × Int × Int × D × (Nat → Int))
  | 0, _, _, _, _ => .error .fuel
  | fuel + 1, jz, f, q, iq => do
    let (z, iq) ← distill N q iq jz
    let (n, ih, z, iq) ← computeN N q0 jz z iq
    let (n, z, iq) ← complement N q0 jz n ih z iq
    match ← needMore jk jz z iq with
    | some k => do
      let (f, q) ← moreTerms N p64 nx x jv jx jz k f q
      recompute nx x jv jx jk q0 fuel (jz + k) f q iq
    | none => pure (jz, n, ih, z, iq)

/-- rem_pio2_large.rs 389-392: drop zero digits -/
def chopZ (iq : Nat → Int) : Nat → Int → M (Nat × Int)
  | 0, q0 => do
    let v ← rd 20 iq 0
    if v = 0 then .error .overflow else pure (0, q0)
  | jz + 1, q0 => do
    let v ← rd 20 iq (jz + 1)
    if v = 0 then do
      let q0 ← i32C (q0 - 24)
      chopZ iq jz q0
    else pure (jz + 1, q0)

/-- rem_pio2_large.rs 386-405: chop off zero terms, or break `z` into 24-bit digits; `jz`, `q0`, `iq` are returned -/
def chop (q0 : Int) (jz : Nat) (z : D) (iq : Nat → Int) : M (Nat × Int × (Nat → Int)) :=
  if f64.feq z 0#f64.w then do
    let jz ← nsubC jz 1
    let q0 ← i32C (q0 - 24)
    let (jz, q0) ← chopZ iq jz q0
    pure (jz, q0, iq)
  else do
    let m ← i32C (-q0)
    let z ← f64.scalbn N z m
    if f64.ge z x1p24 then do
      let k ← toI32 (N.mul x1m24 z)
      let fw ← ofI32 k
      let d ← toI32 (N.sub z (N.mul x1p24 fw))
      let iq ← wr 20 iq jz d
      let q0 ← i32C (q0 + 24)
      let d ← toI32 fw
      let iq ← wr 20 iq (jz + 1) d
      pure (jz + 1, q0, iq)
    else do
      let d ← toI32 z
      let iq ← wr 20 iq jz d
      pure (jz, q0, iq)

/-- rem_pio2_large.rs 408-412: digits to floats -/
def toFloats (q0 : Int) (jz : Nat) (iq : Nat → Int) (q : Nat → D) : M (Nat → D) := do
  let fw ← f64.scalbn N cone q0
  let (_, q) ← forDn (fun i (s : D × (Nat → D)) => do
    let (fw, q) := s
    let v ← rd 20 iq i
    let d ← ofI32 v
    let q ← wr 20 q i (N.mul fw d)
    pure (N.mul fw x1m24, q)) (jz + 1) (fw, q)
  pure q

/-- rem_pio2_large.rs 416-421: `Σ PIO2[k] q[i+k]` for `k ≤ jp` and `k ≤ jz - i` (`d` is `jz - i`) -/
def pioDot (jp d i : Nat) (q : Nat → D) : M D :=
  forUp (fun k fw => do
    let a ← rd 8 PIO2 k
    let b ← rd 20 q (i + k)
    pure (N.add fw (N.mul a b))) (min jp d + 1) 0 0#f64.w

/-- rem_pio2_large.rs 415-423: `fq[jz], ..., fq[0]` -/
def fqs (jp jz : Nat) (q : Nat → D) : M (Nat → D) :=
  forDn (fun i fq => do
    let d ← nsubC jz i
    let fw ← pioDot N jp d i q
    wr 20 fq d fw) (jz + 1) (fun _ => 0#f64.w)

/-- rem_pio2_large.rs 428-431, 435-438: the sum of `fq`, smallest first -/
def sumFq (jz : Nat) (fq : Nat → D) : M D :=
  forDn (fun i fw => do
    let v ← rd 20 fq i
    pure (N.add fw v)) (jz + 1) 0#f64.w

/-- rem_pio2_large.rs 432, 439, 444: `if ih == 0 { fw } else { -fw }` -/
def sgn (ih : Int) (fw : D) : D := if ih = 0 then fw else f64.neg fw

/-- rem_pio2_large.rs 426-476, the cases `prec = 0, 1, 2`; `ny` is the length of `y`. The case `prec = 3` is never used in the crate
and not modelled. -/
def compress (prec ny jz : Nat) (ih : Int) (fq : Nat → D) : M (Nat → D) :=
  if prec = 0 then do
    let fw ← sumFq N jz fq
    wr ny (fun _ => 0#f64.w) 0 (sgn ih fw)
  else if prec = 1 ∨ prec = 2 then do
    let fw ← sumFq N jz fq
    let y ← wr ny (fun _ => 0#f64.w) 0 (sgn ih fw)
    let a ← rd 20 fq 0
    let fw ← forUp (fun i fw => do
      let v ← rd 20 fq i
      pure (N.add fw v)) jz 1 (N.sub a fw)
    wr ny y 1 (sgn ih fw)
  else .error .assert

/-- `rem_pio2_large`, rem_pio2_large.rs 227-478; `x` has length `nx`, `y` has length `ny` and is zero at the beginning -/
def remPio2Large (nx : Nat) (x : Nat → D) (ny : Nat) (e0 : Int) (prec : Nat) : M (Int × (Nat → D)) := do
  assertC (!p64 || decide (e0 ≤ 16360))
  let jk ← rd 4 INIT_JK prec
  let jx ← nsubC nx 1
  let t ← i32C (e0 - 3)
  let jv := max (t.tdiv 24) 0
  let t ← i32C (24 * (jv + 1))
  let q0 ← i32C (e0 - t)
  let jv := jv.toNat
  let f ← fInit p64 jv jx (jx + jk)
  let q ← qInit N nx x f jx jk
  let (jz, n, ih, z, iq) ← recompute N p64 nx x jv jx jk q0 20 jk f q (fun _ => 0)
  let (jz, q0, iq) ← chop N q0 jz z iq
  let q ← toFloats N q0 jz iq q
  let fq ← fqs N jk jz q
  let y ← compress N prec ny jz ih fq
  pure (andI n 7, y)

end
end Pio2
end Verif
