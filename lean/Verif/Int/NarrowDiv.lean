import Verif.Int.Wide
import Verif.Int.Lz
/-!
# Narrowing division and modular reduction (model)

* `libm/src/math/support/int_traits/narrowing_div.rs`
* `libm/src/math/support/modular.rs`
-/
namespace Verif

/-- `CastInto::cast` between unsigned integers, int_traits.rs 450-456: checked in debug builds. -/
def castC {w : Nat} (v : Nat) (x : BitVec w) : M (BitVec v) :=
  if x.toNat < 2 ^ v then .ok (x.setWidth v) else .error .assert

/-- `unchecked_narrowing_div_rem` for the primitive types, narrowing_div.rs 30-42. -/
def ndPrim {h : Nat} (a : BitVec (2 * h)) (n : BitVec h) : M (BitVec h × BitVec h) := do
  if n.toNat ≤ (hi a).toNat then
    .error .ub
  else
    let q ← divC a (zeroWiden n)
    let q ← castC h q
    let r ← remC a (zeroWiden n)
    let r ← castC h r
    pure (q, r)

/-- `checked_narrowing_div_rem`, narrowing_div.rs 18-26; `u` is `self.hi()`, `f` the unchecked method. -/
def ndChecked {h : Nat} (u n : BitVec h) (f : M (BitVec h × BitVec h)) :
    M (Option (BitVec h × BitVec h)) :=
  if u.toNat < n.toNat then do
    let p ← f
    pure (some p)
  else
    pure none

/-- The correction steps at the end of `div_three_digits_by_two`, narrowing_div.rs 136-148. -/
def divCorrect {g : Nat} (q : BitVec g) (r n : BitVec (2 * g)) : M (BitVec g × BitVec (2 * g)) := do
  let (r, wrap) := overflowingAdd r n
  if wrap then
    pure (q, r)
  else
    let q ← subC q 1#g
    let (r, wrap) := overflowingAdd r n
    assertC wrap
    pure (q, r)

/-- `div_three_digits_by_two`, narrowing_div.rs 87-149. -/
def div3by2 {g : Nat} (a0 : BitVec g) (a n : BitVec (2 * g)) : M (BitVec g × BitVec (2 * g)) := do
  if 0 < nlz n ∨ n.toNat ≤ a.toNat then
    .error .ub
  else
    let n0 := lo n
    let n1 := hi n
    let a1 := lo a
    let a2 := hi a
    match ← ndChecked (hi a) n1 (ndPrim a n1) with
    | some (q, r1) =>
      let r := fromLoHi a0 r1
      let d := zeroWidenMul q n0
      let (r, wrap) := overflowingSub r d
      if !wrap then
        pure (q, r)
      else
        let q ← subC q 1#g
        divCorrect q r n
    | none =>
      assertC (a2 == n1 && a1.ult n0)
      let r := fromLoHi a0 (a1 - n0)
      divCorrect (BitVec.allOnes g) r n

/-- `unchecked_narrowing_div_rem` for `u256`, narrowing_div.rs 47-74 (`g = 64`). -/
def ndWide {g : Nat} (x : Wide (2 * g)) (n : BitVec (2 * g)) : M (BitVec (2 * g) × BitVec (2 * g)) := do
  if n.toNat ≤ x.hi.toNat then
    .error .ub
  else
    let lz := nlz n
    let a ← x.shl lz
    let b ← shlC n lz
    let ah := a.hi
    let a0 := lo a.lo
    let a1 := hi a.lo
    let (q1, r) ← div3by2 a1 ah b
    let (q0, r) ← div3by2 a0 r b
    let r ← shrC r lz
    pure (fromLoHi q0 q1, r)

/-- The operations of `U::D` (trait `DInt` + `HInt::D` + `NarrowingDiv`) that `modular.rs` uses, where
`U` has `w` bits. Both implementations in the crate, the primitive types and `u256`, are instances
below. -/
structure DOps (w : Nat) where
  D : Type
  /-- `DInt::lo` -/
  lo : D → BitVec w
  /-- `DInt::hi` -/
  hi : D → BitVec w
  /-- `DInt::from_lo_hi` -/
  fromLoHi : BitVec w → BitVec w → D
  /-- `HInt::widen_hi` -/
  widenHi : BitVec w → D
  /-- `HInt::widen_mul` -/
  widenMul : BitVec w → BitVec w → M D
  /-- operator `+` -/
  add : D → D → M D
  /-- operator `<<` -/
  shl : D → Nat → M D
  /-- `unchecked_narrowing_div_rem` -/
  nd : D → BitVec w → M (BitVec w × BitVec w)

/-- Primitive double-width types. -/
def DOps.prim (w : Nat) : DOps w where
  D := BitVec (2 * w)
  lo := Verif.lo
  hi := Verif.hi
  fromLoHi := Verif.fromLoHi
  widenHi := Verif.widenHi
  widenMul := fun a b => .ok (zeroWidenMul a b)
  add := addC
  shl := shlC
  nd := ndPrim

/-- `u256` over `u128` (`w = 2 * g` with `g = 64`). -/
def DOps.wide (g : Nat) : DOps (2 * g) where
  D := Wide (2 * g)
  lo := fun x => x.lo
  hi := fun x => x.hi
  fromLoHi := Wide.fromLoHi
  widenHi := Wide.widenHi
  widenMul := Wide.zeroWidenMul
  add := Wide.add false
  shl := Wide.shl
  nd := ndWide

/-- `struct Reducer`, modular.rs 70-81. -/
structure Reducer {w : Nat} (O : DOps w) where
  m : BitVec w
  r : BitVec w
  xq : O.D

namespace Reducer
variable {w : Nat} (O : DOps w)

/-- `Reducer::new`, modular.rs 93-121. -/
def new (x n : BitVec w) : M (Reducer O) := do
  let c ← nsubC w 3
  let t ← shlC 1#w c
  assertC (t.ult n)
  let c ← nsubC w 2
  let t ← shlC 1#w c
  assertC (n.ult t)
  let m ← shlC n 1
  assertC (x.ult m)
  let c ← nsubC w 1
  let t ← shlC 1#w c
  let t ← subC t m
  let dividend := O.widenHi t
  match ← ndChecked (O.hi dividend) m (O.nd dividend m) with
  | none => .error .assert
  | some (f, r) =>
    let x2 ← addC x x
    let p ← O.widenMul x2 f
    let xq ← O.add (O.widenHi x2) p
    pure { m, r, xq }

variable {O}

/-- `Reducer::partial_remainder`, modular.rs 124-160. -/
def partialRemainder (s : Reducer O) : M (BitVec w) := do
  let u := O.hi s.xq
  let two ← addC 1#w 1#w
  let u ← addC u two
  let p ← O.widenMul s.m u
  pure (O.hi p)

/-- `Reducer::shift_reduce`, modular.rs 166-193 (the returned quotient is not used). -/
def shiftReduce (s : Reducer O) (k : Nat) : M (Reducer O) := do
  assertC (decide (k < w))
  let c ← nsubC w 1
  let c ← nsubC c k
  let a ← shrC (O.hi s.xq) c
  let t ← O.shl s.xq k
  let low := O.lo t
  let high := O.hi t
  let mask ← shrC (BitVec.allOnes w) 1
  let b := O.fromLoHi low (high &&& mask)
  let p ← O.widenMul a s.r
  let xq ← O.add p b
  pure { s with xq }

/-- `Reducer::word_reduce`, modular.rs 201-211 (the returned quotient is not used). -/
def wordReduce (s : Reducer O) : M (Reducer O) := do
  let v := O.lo s.xq
  let u := O.hi s.xq
  let p ← O.widenMul u s.r
  let v ← shrC v 1
  let xq ← O.add p (O.widenHi v)
  pure { s with xq }

/-- The loop of `linear_mul_reduction`, modular.rs 52-55. The first argument bounds the number of
iterations; running out of it is the fault `fuel`. -/
def wordLoop : Nat → Reducer O → Nat → M (Reducer O × Nat)
  | 0, _, _ => .error .fuel
  | fuel + 1, s, e => do
    let c ← nsubC w 1
    if c ≤ e then
      let s ← s.wordReduce
      let e ← nsubC e c
      wordLoop fuel s e
    else
      pure (s, e)

end Reducer

/-- `linear_mul_reduction`, modular.rs 17-61. `e` is a `u32`, kept as a `Nat` with explicit overflow
check. -/
def linearMulReduction {w : Nat} (O : DOps w) (x : BitVec w) (e : Nat) (y : BitVec w) : M (BitVec w) := do
  let t ← shrC (BitVec.allOnes w) 2
  assertC (decide (y.toNat ≤ t.toNat))
  let t ← shlC y 1
  assertC (x.ult t)
  let y1 ← subC y 1#w
  if y &&& y1 = 0#w then
    if e < w then
      let t ← shlC x e
      let y1 ← subC y 1#w
      pure (t &&& y1)
    else
      pure 0#w
  else
    let s ← nsubC (nlz y) 2
    if 2 ^ 32 ≤ e + s then
      .error .overflow
    else
      let e := e + s
      let y ← shlC y s
      let m ← Reducer.new O x y
      let (m, e) ← m.wordLoop (e + 1) e
      let m ← m.shiftReduce e
      let r ← m.partialRemainder
      let d ← (if y.toNat ≤ r.toNat then subC r y else pure r)
      shrC d s

end Verif
