import Verif.Libm.RoundNearest
/-!
# Properties C34-C37: rounding to integers, copysign, fabs

All statements hold for every format `F` (binary16/32/64/128 are instances) and, where the code uses native float
arithmetic, for every implementation `N : FPU F` of IEEE-754 arithmetic.
-/
namespace Verif.Props
open Fmt

/-- C34 `floor`: the greatest integer not above `x`, keeping the sign of `x` (so a zero result has the sign of `x`); the status is
inexact iff the value changed. -/
theorem C34_floor (F : Fmt) {x : BitVec F.w} (hx : F.IsFin x) :
    ∃ r, F.floorStatus x = .ok r ∧ F.IsFin r.1 ∧ F.sign r.1 = F.sign x ∧ F.val r.1 = ((⌊F.val x⌋ : ℤ) : ℚ) ∧
      r.2 = if F.val r.1 = F.val x then Status.OK else Status.INEXACT := by
  obtain ⟨r, h1, h2⟩ := F.floorStatus_fin hx
  obtain ⟨a, b, c, d⟩ := F.intRes_value h2
  refine ⟨r, h1, a, b, ?_, d⟩
  rw [Bool.xor_self] at c; simpa using c
example : f64.IsFin 0xC004000000000000#f64.w ∧ f64.floorStatus 0xC004000000000000#f64.w = .ok (0xC008000000000000#f64.w, Status.INEXACT) := by
  unfold IsFin; decide +kernel

/-- C34 `ceil`: the least integer not below `x`. -/
theorem C34_ceil (F : Fmt) {x : BitVec F.w} (hx : F.IsFin x) :
    ∃ r, F.ceilStatus x = .ok r ∧ F.IsFin r.1 ∧ F.sign r.1 = F.sign x ∧ F.val r.1 = ((⌈F.val x⌉ : ℤ) : ℚ) ∧
      r.2 = if F.val r.1 = F.val x then Status.OK else Status.INEXACT := by
  obtain ⟨r, h1, h2⟩ := F.ceilStatus_fin hx
  obtain ⟨a, b, c, d⟩ := F.intRes_value h2
  refine ⟨r, h1, a, b, ?_, d⟩
  have : (F.sign x ^^ !F.sign x) = true := by cases F.sign x <;> rfl
  rw [this] at c; simpa using c
example : f32.IsFin 0xBF000000#f32.w ∧ f32.ceilStatus 0xBF000000#f32.w = .ok (0x80000000#f32.w, Status.INEXACT) := by
  unfold IsFin; decide +kernel

/-- C34 `trunc`: the integer part toward zero. -/
theorem C34_trunc (F : Fmt) {x : BitVec F.w} (hx : F.IsFin x) :
    ∃ r, F.truncStatus x = .ok r ∧ F.IsFin r.1 ∧ F.sign r.1 = F.sign x ∧
      F.val r.1 = ((if F.val x < 0 then ⌈F.val x⌉ else ⌊F.val x⌋ : ℤ) : ℚ) ∧
      r.2 = if F.val r.1 = F.val x then Status.OK else Status.INEXACT := by
  obtain ⟨r, h1, h2⟩ := F.truncStatus_fin hx
  obtain ⟨a, b, c, d⟩ := F.intRes_value h2
  refine ⟨r, h1, a, b, ?_, d⟩
  rw [c]
  have hv := F.val_neg_iff (b := x)
  by_cases hz : F.mag x = 0
  · have := F.val_eq_zero_iff.mpr hz
    rw [this]; simp
  · simp only [hz, ne_eq, not_false_eq_true, and_true] at hv
    simp only [hv, Bool.xor_false]
example : f64.IsFin 0xC004000000000000#f64.w ∧ f64.truncStatus 0xC004000000000000#f64.w = .ok (0xC000000000000000#f64.w, Status.INEXACT) := by
  unfold IsFin; decide +kernel

/-- C34: infinities and NaN are returned unchanged, with status OK. -/
theorem C34_special (F : Fmt) {x : BitVec F.w} (hx : F.IsInf x ∨ F.IsNaN x) :
    F.floorStatus x = .ok (x, Status.OK) ∧ F.ceilStatus x = .ok (x, Status.OK) ∧
    F.truncStatus x = .ok (x, Status.OK) := by
  apply F.floor_ceil_trunc_special
  rcases hx with h | h
  · exact IsInf.not_fin F h
  · exact IsNaN.not_fin F h
example : f32.IsInf 0xFF800000#f32.w ∧ f32.IsNaN 0x7F800001#f32.w := by unfold IsInf IsNaN; decide +kernel

/-- C35 `rint`/`roundeven` on finite operands: nearest integer, ties to even, sign kept, and the status is inexact iff
the value changed. -/
theorem C35_rint_finite (F : Fmt) (N : FPU F) {x : BitVec F.w} (hx : F.IsFin x) :
    F.IsFin (F.rintStatus N x).1 ∧ F.sign (F.rintStatus N x).1 = F.sign x ∧
    (∃ k : ℤ, F.val (F.rintStatus N x).1 = k ∧ |F.val x - k| ≤ 1 / 2 ∧ (|F.val x - k| = 1 / 2 → Even k)) ∧
    (F.rintStatus N x).2 = if F.val (F.rintStatus N x).1 = F.val x then Status.OK else Status.INEXACT :=
  F.rintStatus_fin N hx
-- 2.5 rounds to 2
example : f32.IsFin 0x40200000#f32.w ∧ f32.rintStatus FPU.softF32 0x40200000#f32.w = (0x40000000#f32.w, Status.INEXACT) := by
  unfold IsFin; decide +kernel

/-- C35: infinities and NaN map to themselves. (The status of NaN is INEXACT: the code compares the result with the
operand by `==`.) -/
theorem C35_rint_special (F : Fmt) (N : FPU F) {x : BitVec F.w} (hx : F.IsInf x ∨ F.IsNaN x) :
    (F.rintStatus N x).1 = x ∧ (F.rintStatus N x).2 = if F.IsNaN x then Status.INEXACT else Status.OK := by
  have : ¬ F.IsFin x := by
    rcases hx with h | h
    · exact IsInf.not_fin F h
    · exact IsNaN.not_fin F h
  rw [F.rintStatus_special N this]; exact ⟨rfl, rfl⟩
example : (f32.rintStatus FPU.softF32 0x7F800001#f32.w) = (0x7F800001#f32.w, Status.INEXACT) := by decide +kernel

/-- C36 `round` on finite operands: nearest integer, halfway cases away from zero, sign kept. -/
theorem C36_round_finite (F : Fmt) (N : FPU F) {x : BitVec F.w} (hx : F.IsFin x) :
    ∃ r, F.round N x = .ok r ∧ F.IsFin r ∧ F.sign r = F.sign x ∧
      ∃ k : ℤ, F.val r = k ∧ |F.val x - k| ≤ 1 / 2 ∧ (|F.val x - k| = 1 / 2 → |F.val x| < |(k : ℚ)|) :=
  F.round_fin N hx
-- 2.5 rounds to 3, and 0.49999999999999994 to 0
example : f64.IsFin 0x4004000000000000#f64.w ∧
    f64.round FPU.softF64 0x4004000000000000#f64.w = .ok 0x4008000000000000#f64.w ∧
    f64.round FPU.softF64 0x3FDFFFFFFFFFFFFF#f64.w = .ok 0#f64.w := by
  unfold IsFin; decide +kernel

/-- C36: infinities map to themselves, NaN to NaN. -/
theorem C36_round_special (F : Fmt) (N : FPU F) {x : BitVec F.w} (hx : F.IsInf x ∨ F.IsNaN x) :
    ∃ r, F.round N x = .ok r ∧ if F.IsNaN x then F.IsNaN r else r = x := by
  apply F.round_special N
  rcases hx with h | h
  · exact IsInf.not_fin F h
  · exact IsNaN.not_fin F h
example : f64.round FPU.softF64 0xFFF0000000000000#f64.w = .ok 0xFFF0000000000000#f64.w := by decide +kernel

/-- C37 `copysign`: bit by bit, the sign bit of `y` and all other bits of `x`, for every pattern. -/
theorem C37_copysign (F : Fmt) (x y : BitVec F.w) (i : Nat) (hi : i < F.w) :
    (F.copysign x y).getLsbD i = if i = F.e + F.s then y.getLsbD i else x.getLsbD i := by
  have hm : F.signMask.getLsbD i = decide (i = F.e + F.s) := by
    rw [← BitVec.testBit_toNat, F.toNat_signMask, Nat.testBit_two_pow]
    simp only [eq_comm]
  unfold copysign
  rw [BitVec.getLsbD_or, BitVec.getLsbD_and, BitVec.getLsbD_and, BitVec.getLsbD_not, hm]
  by_cases h : i = F.e + F.s <;> simp [h, hi]
example : f32.copysign 0x7FC01234#f32.w 0x80000000#f32.w = 0xFFC01234#f32.w := by decide +kernel

/-- C37 `fabs`: clears the sign bit and leaves every other bit, for every pattern. -/
theorem C37_fabs (F : Fmt) (x : BitVec F.w) (i : Nat) (hi : i < F.w) :
    (F.fabs x).getLsbD i = if i = F.e + F.s then false else x.getLsbD i := by
  have hm : F.signMask.getLsbD i = decide (i = F.e + F.s) := by
    rw [← BitVec.testBit_toNat, F.toNat_signMask, Nat.testBit_two_pow]
    simp only [eq_comm]
  unfold fabs
  rw [BitVec.getLsbD_and, BitVec.getLsbD_not, hm]
  by_cases h : i = F.e + F.s <;> simp [h, hi]
example : f32.fabs 0xFFC01234#f32.w = 0x7FC01234#f32.w := by decide +kernel

/-- C37: what this means for the value, e.g. `copysign` of a finite number. -/
theorem C37_value (F : Fmt) (x y : BitVec F.w) :
    F.sign (F.copysign x y) = F.sign y ∧ F.mag (F.copysign x y) = F.mag x ∧
    F.val (F.fabs x) = |F.val x| := by
  obtain ⟨a, b⟩ := F.copysign_facts x y
  obtain ⟨c, d⟩ := F.fabs_facts x
  refine ⟨a, b, ?_⟩
  have := F.magVal_nonneg ℚ (F.mag x)
  rw [F.val_sign, F.val_sign, c, d]
  cases F.sign x <;> simp [abs_of_nonneg this]
example : f32.val (f32.fabs 0xBF800000#f32.w) = |f32.val 0xBF800000#f32.w| := (C37_value f32 _ 0).2.2

end Verif.Props
