import Verif.Int.Div
/-!
# Model of the public division entry points

`compiler-builtins/src/int/udiv.rs`, `compiler-builtins/src/int/sdiv.rs` and the choice of algorithm in
`specialized_div_rem/mod.rs`.

The `rem: Option<&mut T>` out-parameter is modelled as an `Option (BitVec w)` holding the pointee; the
returned `Option` is the pointee after the call.
-/
namespace Verif

/-- `u128_div_rem` on 64-bit targets and wasm, specialized_div_rem/mod.rs 149-165. -/
def u128DivRemTrifecta (half : DivRem 64) : DivRem 128 := trifecta (q := 32) half
/-- `u128_div_rem` on other targets, specialized_div_rem/mod.rs 170-188; also `u128_divide_sparc`,
delegate.rs 197-318, whose body is the same text with the remainder written through a pointer. -/
def u128DivRemDelegate (useLz : Bool) (half : DivRem 64) : DivRem 128 := delegate (q := 32) useLz half
/-- `u128_div_rem` on x86_64, specialized_div_rem/mod.rs 218-228. -/
def u128DivRemAsymmetric (half : DivRem 64) : DivRem 128 := asymmetric (n := 64) half
/-- `u64_div_rem` on targets whose pointer width is below 64, specialized_div_rem/mod.rs 246-260. -/
def u64DivRemDelegate (useLz : Bool) (half : DivRem 32) : DivRem 64 := delegate (q := 16) useLz half
/-- `u64_div_rem` on 64-bit targets, specialized_div_rem/mod.rs 263-274. -/
def u64DivRemBinaryLong (useLz : Bool) : DivRem 64 := binaryLong useLz
/-- `u64_div_rem` on x86, specialized_div_rem/mod.rs 304-314. -/
def u64DivRemAsymmetric (half : DivRem 32) : DivRem 64 := asymmetric (n := 32) half
/-- `u32_div_rem`, specialized_div_rem/mod.rs 317-324. -/
def u32DivRem (useLz : Bool) : DivRem 32 := binaryLong useLz

/-- `__udivsi3`, `__udivdi3`, `__udivti3`: udiv.rs 10-12, 136-138, 160-167. -/
def udiv {w} (f : DivRem w) (n d : BitVec w) : M (BitVec w) := do return (← f n d).1
/-- `__umodsi3`, `__umoddi3`, `__umodti3`: udiv.rs 16-18, 142-144, 170-179. -/
def umod {w} (f : DivRem w) (n d : BitVec w) : M (BitVec w) := do return (← f n d).2
/-- `__udivmodsi4`, `__udivmoddi4`, `__udivmodti4`: udiv.rs 25-31, 148-154, 182-198. -/
def udivmod {w} (f : DivRem w) (n d : BitVec w) (rem : Option (BitVec w)) :
    M (BitVec w × Option (BitVec w)) := do
  let quoRem ← f n d
  pure (quoRem.1, rem.map fun _ => quoRem.2)

/-- `__udivmodsi4` on AVR: udiv.rs 40-44, both results packed in a double-width integer. -/
def udivmodPacked {w} (f : DivRem w) (n d : BitVec w) : M (BitVec (2 * w)) := do
  let (div, rem) ← f n d
  pure ((rem.setWidth (2 * w) <<< w) ||| div.setWidth (2 * w))

/-- `$signed_fn` of `sdivmod!`, sdiv.rs 16-42 (`__divmodsi4`, `__divmoddi4`, `__divmodti4`). -/
def sdivmod {w} (f : DivRem w) (a b : BitVec w) (rem : BitVec w) : M (BitVec w × BitVec w) := do
  let aNeg := a.slt 0#w
  let bNeg := b.slt 0#w
  let a := if aNeg then -a else a
  let b := if bNeg then -b else b
  let (t, r) ← udivmod f a b (some rem)
  let r := r.getD rem
  let r := if aNeg then -r else r
  pure (if aNeg != bNeg then -t else t, r)

/-- `$signed_fn` of `sdiv!`, sdiv.rs 60-77 (`__divdi3`, `__divti3`), and `__divsi3`, sdiv.rs 165-182. -/
def sdiv {w} (f : DivRem w) (a b : BitVec w) : M (BitVec w) := do
  let aNeg := a.slt 0#w
  let bNeg := b.slt 0#w
  let a := if aNeg then -a else a
  let b := if bNeg then -b else b
  let t ← udiv f a b
  pure (if aNeg != bNeg then -t else t)

/-- `$signed_fn` of `smod!`, sdiv.rs 95-112 (`__modsi3`, `__moddi3`, `__modti3`). -/
def smod {w} (f : DivRem w) (a b : BitVec w) : M (BitVec w) := do
  let aNeg := a.slt 0#w
  let bNeg := b.slt 0#w
  let a := if aNeg then -a else a
  let b := if bNeg then -b else b
  let r ← umod f a b
  pure (if aNeg then -r else r)

/-- `__divmodsi4` on AVR, sdiv.rs 132-157. -/
def sdivmodPacked {w} (f : DivRem w) (a b : BitVec w) : M (BitVec (2 * w)) := do
  let aNeg := a.slt 0#w
  let bNeg := b.slt 0#w
  let a := if aNeg then -a else a
  let b := if bNeg then -b else b
  let tr ← udivmodPacked f a b
  let t := tr.setWidth w
  let r := (tr >>> w).setWidth w
  let r := if aNeg then -r else r
  let t := if aNeg != bNeg then -t else t
  pure ((r.setWidth (2 * w) <<< w) ||| t.setWidth (2 * w))

/-! ### The AVR assembly routines

Registers are 8 bits wide; `c` is the carry flag. -/

/-- AVR `lsl`: shift left, the carry flag receives bit 7. -/
def avrLsl (r : BitVec 8) : BitVec 8 × Bool := (r <<< 1, r.msb)
/-- AVR `rol`: shift left through the carry flag. -/
def avrRol (r : BitVec 8) (c : Bool) : BitVec 8 × Bool := (r <<< 1 ||| (if c then 1#8 else 0#8), r.msb)
/-- AVR `cp`/`sub`: difference and borrow (carry flag). -/
def avrSub (a b : BitVec 8) : BitVec 8 × Bool := (a - b, a.toNat < b.toNat)
/-- AVR `cpc`/`sbc`: difference with incoming borrow, and outgoing borrow. -/
def avrSbc (a b : BitVec 8) (c : Bool) : BitVec 8 × Bool :=
  (a - b - (if c then 1#8 else 0#8), a.toNat < b.toNat + (if c then 1 else 0))

/-- The loop of `__udivmodqi4`, udiv.rs 64-76: `R23` counts down, `R24` dividend/quotient, `R25`
remainder, `R22` divisor. -/
def udivmodqi4Loop (r22 : BitVec 8) : Nat → BitVec 8 → BitVec 8 → BitVec 8 × BitVec 8
  | 0, r24, r25 => (r24, r25)
  | r23 + 1, r24, r25 =>
    let (r24, c) := avrLsl r24
    let (r25, _) := avrRol r25 c
    if (avrSub r25 r22).2 then udivmodqi4Loop r22 r23 r24 r25
    else udivmodqi4Loop r22 r23 (r24 ||| 1#8) (avrSub r25 r22).1

/-- `__udivmodqi4`, udiv.rs 47-79: `R24` dividend, `R22` divisor; returns (`R24`, `R25`). -/
def udivmodqi4 (r24 r22 : BitVec 8) : BitVec 8 × BitVec 8 := udivmodqi4Loop r22 8 r24 0#8

/-- The loop of `__udivmodhi4`, udiv.rs 110-126. -/
def udivmodhi4Loop (r26 r27 : BitVec 8) : Nat → (r22 r23 r24 r25 : BitVec 8) →
    BitVec 8 × BitVec 8 × BitVec 8 × BitVec 8
  | 0, r22, r23, r24, r25 => (r22, r23, r24, r25)
  | r21 + 1, r22, r23, r24, r25 =>
    let (r22, c) := avrLsl r22
    let (r23, c) := avrRol r23 c
    let (r24, c) := avrRol r24 c
    let (r25, _) := avrRol r25 c
    if (avrSbc r25 r27 (avrSub r24 r26).2).2 then udivmodhi4Loop r26 r27 r21 r22 r23 r24 r25
    else
      let (r24, c) := avrSub r24 r26
      let (r25, _) := avrSbc r25 r27 c
      udivmodhi4Loop r26 r27 r21 (r22 ||| 1#8) r23 r24 r25

/-- `__udivmodhi4`, udiv.rs 82-129. Inputs `R24:R25` dividend and `R22:R23` divisor (low, high);
returns (`R22`, `R23`, `R24`, `R25`). -/
def udivmodhi4 (r24 r25 r22 r23 : BitVec 8) : BitVec 8 × BitVec 8 × BitVec 8 × BitVec 8 :=
  udivmodhi4Loop r22 r23 16 r24 r25 0#8 0#8

end Verif
