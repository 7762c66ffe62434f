import Verif.Libm.ExpMain
import Verif.Libm.ExpFMain
import Mathlib.Analysis.Complex.ExponentialBounds
/-! # Properties C64 and C65: `exp` and `expf` -/
namespace Verif.Props
open Fmt

/-- C64: if `e^x` is below `2^1024`, `exp` of a finite `x` is finite, has a clear sign bit, and is within `0.95 * 2^-52` of `e^x` relatively, up to half
of the least subnormal; computing it does not panic. -/
theorem C64_exp (N : FPU f64) {x : BitVec f64.w} (hx : f64.IsFin x) (h : Real.exp ((f64.val x : ℚ) : ℝ) < 2 ^ (1024 : ℤ)) :
    ∃ r, Exp.exp N x = .ok r ∧ f64.IsFin r ∧ f64.sign r = false ∧
      |((f64.val r : ℚ) : ℝ) - Real.exp ((f64.val x : ℚ) : ℝ)| ≤ 0.95 / 2 ^ 52 * Real.exp ((f64.val x : ℚ) : ℝ) + 2 ^ (-1075 : ℤ) := by
  have hv : GFv f64 x ((f64.val x : ℚ) : ℝ) := ⟨hx, (f64.valK_cast x).symm⟩
  have h1 : ((f64.val x : ℚ) : ℝ) ≤ (f64.val Exp.OVER : ℚ) := by
    by_contra hc
    exact absurd (Exp.exp_big N hv (not_le.mp hc)).2 (not_le.mpr h)
  obtain ⟨r, h2, h3, h4, h5⟩ := Exp.exp_fin N hv h1
  refine ⟨r, h2, h3, h4, ?_⟩
  rw [f64.valK_cast r, show (0.95 : ℝ) / 2 ^ 52 = 1.9 / 2 ^ 53 by norm_num]
  exact h5

/-- C64: `exp` of a finite number is `+∞` if `e^x` is `2^1024` or more. -/
theorem C64_exp_overflow (N : FPU f64) {x : BitVec f64.w} (hx : f64.IsFin x) (h : 2 ^ (1024 : ℤ) ≤ Real.exp ((f64.val x : ℚ) : ℝ)) :
    ∃ r, Exp.exp N x = .ok r ∧ f64.IsInf r ∧ f64.sign r = false := by
  have hv : GFv f64 x ((f64.val x : ℚ) : ℝ) := ⟨hx, (f64.valK_cast x).symm⟩
  refine (Exp.exp_big N hv ?_).1
  by_contra hc
  have h1 := Exp.no_over (not_lt.mp hc)
  unfold Exp.NoOver at h1
  have hp := Real.exp_pos ((f64.val x : ℚ) : ℝ)
  have h2 : Real.exp ((f64.val x : ℚ) : ℝ) ≤ Real.exp ((f64.val x : ℚ) : ℝ) * (1 + 1.9 / 2 ^ 53) := le_mul_of_one_le_right hp.le (by norm_num)
  exact absurd (h.trans h2) (not_le.mpr h1)

/-- C64: a NaN is returned as it is, `exp(+∞)` is `+∞` and `exp(-∞)` is `+0`. -/
theorem C64_exp_special (N : FPU f64) (x : BitVec f64.w) :
    (f64.IsNaN x → Exp.exp N x = .ok x) ∧ (f64.IsInf x → f64.sign x = false → ∃ r, Exp.exp N x = .ok r ∧ f64.IsInf r ∧ f64.sign r = false) ∧
    (f64.IsInf x → f64.sign x = true → Exp.exp N x = .ok 0#f64.w) := Exp.exp_special N x

/-- C64: `exp` of both zeros is exactly `1`. -/
theorem C64_exp_zero (N : FPU f64) {x : BitVec f64.w} (h : f64.mag x = 0) :
    ∃ r, Exp.exp N x = .ok r ∧ f64.val r = 1 := by
  have hx : f64.IsFin x := by unfold Fmt.IsFin; rw [h]; decide
  have hv0 : GFv f64 x 0 := by
    refine ⟨hx, ?_⟩
    unfold Fmt.valK; rw [h, ← f64.magVal_cast, show f64.magVal ℚ 0 = 0 by decide +kernel]; simp
  have hh : Pio2.hi x = 0 := by rw [Pio2.hi_eq, h]; norm_num
  have hdef : (x.toNat >>> 32) &&& 0x7fffffff = Pio2.hi x := rfl
  refine ⟨N.add Exp.one x, ?_, ?_⟩
  · unfold Exp.exp Exp.special
    simp only [hdef, hh]
    simp
  · have h1 : GFv f64 Exp.one 1 := (GFv.const (q := 1) (by decide +kernel) (by decide +kernel)).cast (by norm_num)
    have h2 := (GFv.of_rounds Exp.big64 (h1.addR N hv0) (j := 0) ⟨1, by norm_num⟩ (by norm_num [f64]) (by decide) (by norm_num)).val
    rw [← f64.valK_cast, add_zero] at h2
    exact_mod_cast h2

/-- Concrete cases: `1`, `-1/2`, `700`, `-740` (a subnormal result), the last number without and the first one with overflow. -/
example : Exp.exp FPU.softF64 0x3ff0000000000000#64 = .ok 0x4005bf0a8b14576a#64 ∧
    Exp.exp FPU.softF64 0xbfe0000000000000#64 = .ok 0x3fe368b2fc6f960a#64 ∧
    Exp.exp FPU.softF64 0x4085e00000000000#64 = .ok 0x7f0d945df4f8ec8e#64 ∧
    Exp.exp FPU.softF64 0xc087200000000000#64 = .ok 0x55#64 ∧
    Exp.exp FPU.softF64 0x40862e42fefa39ef#64 = .ok 0x7fefffffffffff2a#64 ∧
    Exp.exp FPU.softF64 0x40862e42fefa39f0#64 = .ok 0x7ff0000000000000#64 := by decide +kernel
example : f64.IsFin 0x3ff0000000000000#f64.w ∧ Real.exp ((f64.val 0x3ff0000000000000#f64.w : ℚ) : ℝ) < 2 ^ (1024 : ℤ) := by
  refine ⟨by decide, ?_⟩
  rw [show f64.val 0x3ff0000000000000#f64.w = 1 by decide +kernel, Rat.cast_one]
  exact (Real.exp_one_lt_d9.trans (by norm_num : (2.7182818286 : ℝ) < 2 ^ (2 : ℤ))).trans (zpow_lt_zpow_right₀ (by norm_num) (by norm_num))
example : f64.IsFin 0x4090000000000000#f64.w ∧ 2 ^ (1024 : ℤ) ≤ Real.exp ((f64.val 0x4090000000000000#f64.w : ℚ) : ℝ) := by
  refine ⟨by decide, ?_⟩
  rw [show f64.val 0x4090000000000000#f64.w = 1024 by decide +kernel]
  have h1 : (2 : ℝ) ≤ Real.exp 1 := by have := Real.exp_one_gt_d9; norm_num at *; linarith
  have h2 : (2 : ℝ) ^ 1024 ≤ Real.exp 1 ^ 1024 := pow_le_pow_left₀ (by norm_num) h1 1024
  rw [← Real.exp_nat_mul] at h2
  rw [mul_one] at h2
  rw [show ((1024 : ℤ)) = ((1024 : ℕ) : ℤ) from rfl, zpow_natCast]
  refine h2.trans (le_of_eq ?_)
  congr 1

/-- C65: if `e^x` is below `2^128`, `expf` of a finite `x` is finite, has a clear sign bit, and is within `0.95 * 2^-23` of `e^x` relatively, up to half of
the least subnormal; computing it does not panic. -/
theorem C65_expf (N : FPU f32) {x : BitVec f32.w} (hx : f32.IsFin x) (h : Real.exp ((f32.val x : ℚ) : ℝ) < 2 ^ (128 : ℤ)) :
    ∃ r, Exp.F32.expf N x = .ok r ∧ f32.IsFin r ∧ f32.sign r = false ∧
      |((f32.val r : ℚ) : ℝ) - Real.exp ((f32.val x : ℚ) : ℝ)| ≤ 0.95 / 2 ^ 23 * Real.exp ((f32.val x : ℚ) : ℝ) + 2 ^ (-150 : ℤ) := by
  have hv : GFv f32 x ((f32.val x : ℚ) : ℝ) := ⟨hx, (f32.valK_cast x).symm⟩
  have h1 : ((f32.val x : ℚ) : ℝ) < 88.72283935546875 := by
    by_contra hc
    exact absurd (Exp.F32.expf_big N hv (not_lt.mp hc)).2 (not_le.mpr h)
  obtain ⟨r, h2, h3, h4, h5⟩ := Exp.F32.expf_fin N hv h1
  refine ⟨r, h2, h3, h4, ?_⟩
  rw [f32.valK_cast r, show (0.95 : ℝ) / 2 ^ 23 = 1.9 / 2 ^ 24 by norm_num]
  exact h5

/-- C65: `expf` of a finite number is `+∞` if `e^x` is `2^128` or more. -/
theorem C65_expf_overflow (N : FPU f32) {x : BitVec f32.w} (hx : f32.IsFin x) (h : 2 ^ (128 : ℤ) ≤ Real.exp ((f32.val x : ℚ) : ℝ)) :
    ∃ r, Exp.F32.expf N x = .ok r ∧ f32.IsInf r ∧ f32.sign r = false := by
  have hv : GFv f32 x ((f32.val x : ℚ) : ℝ) := ⟨hx, (f32.valK_cast x).symm⟩
  refine (Exp.F32.expf_big N hv ?_).1
  by_contra hc
  have h1 := Exp.F32.no_over (Exp.F32.below hv (not_le.mp hc))
  unfold Exp.F32.NoOver at h1
  have hp := Real.exp_pos ((f32.val x : ℚ) : ℝ)
  have h2 : Real.exp ((f32.val x : ℚ) : ℝ) ≤ Real.exp ((f32.val x : ℚ) : ℝ) * (1 + 1.9 / 2 ^ 24) := le_mul_of_one_le_right hp.le (by norm_num)
  exact absurd (h.trans h2) (not_le.mpr h1)

/-- C65: a NaN is returned as it is, `expf(+∞)` is `+∞` and `expf(-∞)` is `+0`. -/
theorem C65_expf_special (N : FPU f32) (x : BitVec f32.w) :
    (f32.IsNaN x → Exp.F32.expf N x = .ok x) ∧
    (f32.IsInf x → f32.sign x = false → ∃ r, Exp.F32.expf N x = .ok r ∧ f32.IsInf r ∧ f32.sign r = false) ∧
    (f32.IsInf x → f32.sign x = true → Exp.F32.expf N x = .ok 0#f32.w) := Exp.F32.expf_special N x

/-- C65: `expf` of both zeros is exactly `1`. -/
theorem C65_expf_zero (N : FPU f32) {x : BitVec f32.w} (h : f32.mag x = 0) :
    ∃ r, Exp.F32.expf N x = .ok r ∧ f32.val r = 1 := by
  have hx : f32.IsFin x := by unfold Fmt.IsFin; rw [h]; decide
  have hv0 : GFv f32 x 0 := by
    refine ⟨hx, ?_⟩
    unfold Fmt.valK; rw [h, ← f32.magVal_cast, show f32.magVal ℚ 0 = 0 by decide +kernel]; simp
  refine ⟨N.add Exp.F32.one x, ?_, ?_⟩
  · unfold Exp.F32.expf Exp.F32.special
    simp only [mag32, h]
    simp
  · have h1 : GFv f32 Exp.F32.one 1 := (GFv.const (q := 1) (by decide +kernel) (by decide +kernel)).cast (by norm_num)
    have h2 := (GFv.of_rounds Exp.F32.big32 (h1.addR N hv0) (j := 0) ⟨1, by norm_num⟩ (by norm_num [f32]) (by decide) (by norm_num)).val
    rw [← f32.valK_cast, add_zero] at h2
    exact_mod_cast h2

/-- Concrete cases: `1`, `-1/2`, `87.5`, `-100` (a subnormal result), the last number without and the first one with overflow. -/
example : Exp.F32.expf FPU.softF32 0x3f800000#32 = .ok 0x402df854#32 ∧
    Exp.F32.expf FPU.softF32 0xbf000000#32 = .ok 0x3f1b4598#32 ∧
    Exp.F32.expf FPU.softF32 0x42af0000#32 = .ok 0x7e96bab3#32 ∧
    Exp.F32.expf FPU.softF32 0xc2c80000#32 = .ok 0x1b#32 ∧
    Exp.F32.expf FPU.softF32 0x42b17217#32 = .ok 0x7f7fff84#32 ∧
    Exp.F32.expf FPU.softF32 0x42b17218#32 = .ok 0x7f800000#32 := by decide +kernel
example : f32.IsFin 0x3f800000#f32.w ∧ Real.exp ((f32.val 0x3f800000#f32.w : ℚ) : ℝ) < 2 ^ (128 : ℤ) := by
  refine ⟨by decide, ?_⟩
  rw [show f32.val 0x3f800000#f32.w = 1 by decide +kernel, Rat.cast_one]
  exact (Real.exp_one_lt_d9.trans (by norm_num : (2.7182818286 : ℝ) < 2 ^ (2 : ℤ))).trans (zpow_lt_zpow_right₀ (by norm_num) (by norm_num))

end Verif.Props
