import Verif.Core
/-!
# Halves of double-width integers

Models the `DInt`/`HInt` helper traits of `libm/src/math/support/int_traits.rs` (lines 305-410), which
compiler-builtins uses to build double-width operations out of half-width ones.
A double-width integer is `BitVec (2 * h)`, its halves are `BitVec h`.
-/
namespace Verif

/-- `DInt::lo`, int_traits.rs 363-365: `self as $X` (truncation). -/
def lo {h} (x : BitVec (2 * h)) : BitVec h := x.setWidth h
/-- `DInt::hi`, int_traits.rs 366-368: `(self >> BITS) as $X` for the unsigned types. -/
def hi {h} (x : BitVec (2 * h)) : BitVec h := (x >>> h).setWidth h
/-- `DInt::hi`, int_traits.rs 366-368, for the signed types, where `>>` is arithmetic. -/
def hiS {h} (x : BitVec (2 * h)) : BitVec h := (x.sshiftRight h).setWidth h
/-- `HInt::zero_widen`, int_traits.rs 383-385. -/
def zeroWiden {h} (x : BitVec h) : BitVec (2 * h) := x.setWidth (2 * h)
/-- `HInt::widen_hi`, int_traits.rs 392-394, unsigned types: `(self as $X) << BITS`. -/
def widenHi {h} (x : BitVec h) : BitVec (2 * h) := (x.setWidth (2 * h)) <<< h
/-- `HInt::widen_hi`, int_traits.rs 392-394, signed types, where `self as $X` sign-extends. -/
def widenHiS {h} (x : BitVec h) : BitVec (2 * h) := (x.signExtend (2 * h)) <<< h
/-- `DInt::from_lo_hi`, int_traits.rs 328-330. -/
def fromLoHi {h} (l u : BitVec h) : BitVec (2 * h) := zeroWiden l ||| widenHi u
/-- `HInt::zero_widen_mul` and (for unsigned types) `widen_mul`, int_traits.rs 386-391. -/
def zeroWidenMul {h} (a b : BitVec h) : BitVec (2 * h) := zeroWiden a * zeroWiden b
/-- `wrapping_shl`: the amount is reduced modulo the width (int_traits.rs 155-157). -/
def wshl {w} (x : BitVec w) (n : Nat) : BitVec w := x <<< (n % w)
/-- `wrapping_shr` of an unsigned integer / `logical_shr` (int_traits.rs 123-125, 159-161). -/
def wshr {w} (x : BitVec w) (n : Nat) : BitVec w := x >>> (n % w)
/-- `wrapping_shr` of a signed integer (int_traits.rs 159-161). -/
def wsshr {w} (x : BitVec w) (n : Nat) : BitVec w := x.sshiftRight (n % w)
/-- `u32::wrapping_sub` on shift amounts that are modelled as `Nat`. -/
def wsub32 (a b : Nat) : Nat := (a + 2 ^ 32 - b % 2 ^ 32) % 2 ^ 32
/-- `overflowing_add` of an unsigned type (int_traits.rs 167-169). -/
def overflowingAdd {w} (a b : BitVec w) : BitVec w × Bool := (a + b, 2 ^ w ≤ a.toNat + b.toNat)
/-- `overflowing_sub` of an unsigned type (int_traits.rs 171-173). -/
def overflowingSub {w} (a b : BitVec w) : BitVec w × Bool := (a - b, a.toNat < b.toNat)

theorem toNat_lo {h} (x : BitVec (2 * h)) : (lo x).toNat = x.toNat % 2 ^ h := by simp [lo]

theorem toNat_lt_sq {h} (x : BitVec (2 * h)) : x.toNat < 2 ^ h * 2 ^ h := by
  have := x.isLt; rwa [two_pow_two_mul] at this

theorem toNat_hi {h} (x : BitVec (2 * h)) : (hi x).toNat = x.toNat / 2 ^ h := by
  simp only [hi, BitVec.toNat_setWidth, BitVec.toNat_ushiftRight, Nat.shiftRight_eq_div_pow]
  exact Nat.mod_eq_of_lt (Nat.div_lt_of_lt_mul (toNat_lt_sq x))

theorem hiS_eq {h} (x : BitVec (2 * h)) : hiS x = hi x := by
  apply BitVec.eq_of_getLsbD_eq
  intro i hi'
  have h1 : i + h < 2 * h := by omega
  have h2 : ¬ (2 * h ≤ i) := by omega
  simp [hiS, hi, BitVec.getLsbD_sshiftRight, hi', h2]
  intro h3; omega

theorem widenHiS_eq {h} (x : BitVec h) : widenHiS x = widenHi x := by
  apply BitVec.eq_of_getLsbD_eq
  intro i hi'
  by_cases h1 : i < h
  · simp [widenHiS, widenHi, h1]
  · have h2 : i - h < h := by omega
    simp [widenHiS, widenHi, h1, h2, hi', BitVec.getElem_signExtend]

theorem toNat_zeroWiden {h} (x : BitVec h) : (zeroWiden x).toNat = x.toNat := by
  simp only [zeroWiden, BitVec.toNat_setWidth]
  apply Nat.mod_eq_of_lt
  exact Nat.lt_of_lt_of_le x.isLt (Nat.pow_le_pow_right (by omega) (by omega))

theorem toNat_widenHi {h} (x : BitVec h) : (widenHi x).toNat = x.toNat * 2 ^ h := by
  simp only [widenHi, BitVec.toNat_setWidth, BitVec.toNat_shiftLeft, Nat.shiftLeft_eq]
  have h1 := x.isLt
  rw [Nat.mod_eq_of_lt (a := x.toNat)]
  · apply Nat.mod_eq_of_lt
    rw [two_pow_two_mul]
    exact Nat.mul_lt_mul_of_lt_of_le h1 (Nat.le_refl _) (Nat.two_pow_pos _)
  · exact Nat.lt_of_lt_of_le x.isLt (Nat.pow_le_pow_right (by omega) (by omega))

theorem toNat_fromLoHi {h} (l u : BitVec h) : (fromLoHi l u).toNat = l.toNat + 2 ^ h * u.toNat := by
  simp only [fromLoHi, BitVec.toNat_or, toNat_zeroWiden, toNat_widenHi]
  rw [Nat.or_comm, ← Nat.shiftLeft_eq, ← Nat.shiftLeft_add_eq_or_of_lt l.isLt, Nat.shiftLeft_eq,
    Nat.mul_comm, Nat.add_comm]

theorem toNat_zeroWidenMul {h} (a b : BitVec h) :
    (zeroWidenMul a b).toNat = a.toNat * b.toNat := by
  simp only [zeroWidenMul, BitVec.toNat_mul, toNat_zeroWiden]
  apply Nat.mod_eq_of_lt
  rw [two_pow_two_mul]
  exact Nat.mul_lt_mul'' a.isLt b.isLt

theorem lo_add_hi {h} (x : BitVec (2 * h)) : (lo x).toNat + 2 ^ h * (hi x).toNat = x.toNat := by
  rw [toNat_lo, toNat_hi, Nat.mod_add_div]

theorem fromLoHi_lo_hi {h} (x : BitVec (2 * h)) : fromLoHi (lo x) (hi x) = x := by
  apply BitVec.eq_of_toNat_eq
  rw [toNat_fromLoHi, lo_add_hi]

end Verif
