import Verif.Float.Repr
import Verif.Int.NarrowDiv
/-!
# Model of conversions between integers and floats (compiler-builtins/src/float/conv.rs)

Functions of the source that differ only in the types involved are one definition with the format and the
integer width as parameters; the named functions are instances.
-/
namespace Verif
namespace Fmt

section IntToFloat
variable (F : Fmt)

/-- conv.rs 32-34: `exp::<I, F>(n)`, `N = I::BITS`. -/
def convExp (N n : Nat) : M (BitVec F.w) := do
  let t ← nsubC F.bias 1
  let t ← nsubC (t + N) n
  castU F.w t

/-- conv.rs 40-47: `m_adj`. -/
def mAdj (m_base dropped_bits : BitVec F.w) : M (BitVec F.w) := do
  let t ← shrC dropped_bits (F.w - 1)
  let t ← subC dropped_bits (t &&& ~~~m_base)
  let adj ← shrC t (F.w - 1)
  addC m_base adj

/-- conv.rs 53-56: `repr`. -/
def convRepr (e m : BitVec F.w) : M (BitVec F.w) := do
  let t ← shlC e F.s
  addC t m

/-- conv.rs 59-61: `shift_f_lt_i`. -/
def shiftFLtI (N : Nat) : M Nat := do
  let t ← nsubC N F.w
  pure (t + F.e)

/-- conv.rs 64-66: `shift_f_gt_i`. -/
def shiftFGtI (N n : Nat) : M Nat := do
  let t ← nsubC F.s N
  pure (t + 1 + n)

/-- `u32_to_f32_bits` (80-92), `u64_to_f64_bits` (137-149), `u128_to_f128_bits` (196-207): the integer is as wide
as the float. -/
def uToSame (i : BitVec F.w) : M (BitVec F.w) :=
  if i = 0#F.w then pure 0#F.w
  else do
    let n := nlz i
    let t ← shlC i n
    let m_base ← shrC t F.e
    let t ← shlC i n
    let adj ← shlC t (F.s + 1)
    let m ← F.mAdj m_base adj
    let e ← F.convExp F.w n
    let e ← subC e 1#F.w
    F.convRepr e m

/-- `u32_to_f64_bits` (94-103), `u64_to_f128_bits` (151-161): the integer fits the significand. -/
def uToWide {N : Nat} (i : BitVec N) : M (BitVec F.w) :=
  if i = 0#N then pure 0#F.w
  else do
    let n := nlz i
    let sh ← F.shiftFGtI N n
    let m ← shlC (i.setWidth F.w) sh
    let e ← F.convExp N n
    let e ← subC e 1#F.w
    F.convRepr e m

/-- `u32_to_f128_bits` (105-121): as `uToWide`, computed in the upper `H = 64` bits. `e as u64` is a lossy
cast. -/
def uToWideHi (H : Nat) {N : Nat} (i : BitVec N) : M (BitVec F.w) :=
  if i = 0#N then pure 0#F.w
  else do
    let n := nlz i
    let sh ← F.shiftFGtI N n
    let sh ← nsubC sh H
    let m ← shlC (i.setWidth H) sh
    let e ← F.convExp N n
    let e ← subC (e.setWidth H) 1#H
    let t ← nsubC F.s H
    let t ← shlC e t
    let h ← addC t m
    shlC (h.setWidth F.w) H

/-- `u64_to_f32_bits` (123-135, `mask = 0xFFFF`), `u128_to_f64_bits` (182-194, `mask = 0xFFFF_FFFF`): the integer
is wider than the float. -/
def uToNarrow {N : Nat} (mask i : BitVec N) : M (BitVec F.w) := do
  let n := nlz i
  let i_m := wshl i n
  let sh ← F.shiftFLtI N
  let t ← shrC i_m sh
  let m_base := t.setWidth F.w
  let t ← shrC i_m F.e
  let adj := (t ||| (i_m &&& mask)).setWidth F.w
  let m ← F.mAdj m_base adj
  let e ← (if i = 0#N then pure 0#F.w
    else do
      let e ← F.convExp N n
      subC e 1#F.w)
  F.convRepr e m

/-- `u128_to_f32_bits` (163-180): `d2` is `i_m << f32::BITS >> f32::BITS != 0`. -/
def uToNarrower {N : Nat} (i : BitVec N) : M (BitVec F.w) := do
  let n := nlz i
  let i_m := wshl i n
  let sh ← F.shiftFLtI N
  let t ← shrC i_m sh
  let m_base := t.setWidth F.w
  let t ← nsubC N F.w
  let t ← nsubC t F.s
  let t ← nsubC t 1
  let t ← shrC i_m t
  let d1 := t.setWidth F.w
  let t ← shlC i_m F.w
  let t ← shrC t F.w
  let d2 := if t ≠ 0#N then 1#F.w else 0#F.w
  let adj := d1 ||| d2
  let m ← F.mAdj m_base adj
  let e ← (if i = 0#N then pure 0#F.w
    else do
      let e ← F.convExp N n
      subC e 1#F.w)
  F.convRepr e m

end IntToFloat

/-- conv.rs 80-92 -/
def u32ToF32 (i : BitVec 32) : M (BitVec f32.w) := f32.uToSame i
/-- conv.rs 94-103 -/
def u32ToF64 (i : BitVec 32) : M (BitVec f64.w) := f64.uToWide i
/-- conv.rs 105-121 -/
def u32ToF128 (i : BitVec 32) : M (BitVec f128.w) := f128.uToWideHi 64 i
/-- conv.rs 123-135 -/
def u64ToF32 (i : BitVec 64) : M (BitVec f32.w) := f32.uToNarrow 0xFFFF#64 i
/-- conv.rs 137-149 -/
def u64ToF64 (i : BitVec 64) : M (BitVec f64.w) := f64.uToSame i
/-- conv.rs 151-161 -/
def u64ToF128 (i : BitVec 64) : M (BitVec f128.w) := f128.uToWide i
/-- conv.rs 163-180 -/
def u128ToF32 (i : BitVec 128) : M (BitVec f32.w) := f32.uToNarrower i
/-- conv.rs 182-194 -/
def u128ToF64 (i : BitVec 128) : M (BitVec f64.w) := f64.uToNarrow 0xFFFFFFFF#128 i
/-- conv.rs 196-207 -/
def u128ToF128 (i : BitVec 128) : M (BitVec f128.w) := f128.uToSame i

/-- `unsigned_abs` of the primitive signed integers: the magnitude, as an unsigned integer. -/
def unsignedAbs {N} (i : BitVec N) : BitVec N := if i.msb then -i else i

/-- conv.rs 69-78: `signed`. `cast_from_lossy` from a signed integer sign-extends or truncates. -/
def signedConv (F : Fmt) {N : Nat} (conv : BitVec N → M (BitVec F.w)) (i : BitVec N) : M (BitVec F.w) := do
  let t := (i.sshiftRight (N - 1)).signExtend F.w
  let sign_bit ← shlC t (F.w - 1)
  let r ← conv (unsignedAbs i)
  pure (r ||| sign_bit)

/-! ### float to integer -/

/-- `F::ONE.to_bits()` -/
def oneBits (F : Fmt) : BitVec F.w := BitVec.ofNat F.w F.bias <<< F.s

/-- `-i` on a signed integer (panics for the minimum in a debug build) -/
def negC {N} (i : BitVec N) : M (BitVec N) := if i = BitVec.intMin N then .error .overflow else .ok (-i)

/-- conv.rs 361-414: `float_to_int_inner`; `N = I::BITS`, `max = I::MAX`. -/
def floatToIntInner (F : Fmt) {N : Nat} (max : BitVec N) (fbits : BitVec F.w)
    (map_inbounds : BitVec N → M (BitVec N)) (out_of_bounds : BitVec N) : M (BitVec N) := do
  let l ← nsubC N 1
  let l ← nsubC l (nlz max)
  let int_max_exp := F.bias + l + 1
  let foobar ← nsubC (F.bias + N) 1
  if fbits < F.oneBits then pure 0#N
  else do
    let t ← castU F.w int_max_exp
    let t ← shlC t F.s
    if fbits < t then do
      let m_base ← (if N ≥ F.w then do
          let x ← castC N fbits
          let d ← nsubC N F.s
          let d ← nsubC d 1
          shlC x d
        else do
          let d ← nsubC F.s N
          let t ← shrC fbits (d + 1)
          pure (t.setWidth N))
      let t ← shlC 1#N (N - 1)
      let m := t ||| m_base
      let t ← shrC fbits F.s
      let t ← castToU32 t
      let s ← nsubC foobar t
      let unsigned ← shrC m s
      map_inbounds unsigned
    else if fbits ≤ F.expMask then pure out_of_bounds
    else pure 0#N

/-- conv.rs 321-331: `float_to_unsigned_int`. -/
def floatToUnsigned (F : Fmt) (N : Nat) (f : BitVec F.w) : M (BitVec N) :=
  F.floatToIntInner (BitVec.allOnes N) f (fun i => pure i) (BitVec.allOnes N)

/-- conv.rs 334-350: `float_to_signed_int`. -/
def floatToSigned (F : Fmt) (N : Nat) (f : BitVec F.w) : M (BitVec N) :=
  F.floatToIntInner (BitVec.intMax N) (f &&& ~~~F.signMask)
    (fun i => if F.sign f then negC i else pure i)
    (if F.sign f then BitVec.intMin N else BitVec.intMax N)

end Fmt

/-- `pow.rs` 4-22: the loop, over any `mul`; `pow` is the remaining exponent (a `u32`). The state before the
`break` test is returned. `fuel` bounds the number of iterations; 32 suffice because `pow` is a `u32`. -/
def powLoop {α : Type} (mulOp : α → α → M α) : (fuel : Nat) → (a : α) → (pow : BitVec 32) → (mul : α) → M α
  | 0, _, _, _ => .error .fuel
  | fuel + 1, a, pow, mul => do
    let mul ← (if pow &&& 1#32 ≠ 0#32 then mulOp mul a else pure mul)
    let pow ← shrC pow 1
    if pow = 0#32 then pure mul
    else do
      let a ← mulOp a a
      powLoop mulOp fuel a pow mul

/-- `Int::abs_diff(b, 0)` for `i32` (int_traits.rs): the magnitude of `b`. -/
def absDiffZero (b : BitVec 32) : BitVec 32 := if b.msb then -b else b

/-- pow.rs 4-24: `pow`. -/
def powi {α : Type} (one : α) (mulOp divOp : α → α → M α) (a : α) (b : BitVec 32) : M α := do
  let recip := b.msb
  let mul ← powLoop mulOp 32 a (absDiffZero b) one
  if recip then divOp one mul else pure mul

end Verif
