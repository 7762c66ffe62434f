import Verif.Libm.Expm1Main
import Verif.Libm.Expm1FMain
import Mathlib.Analysis.Complex.ExponentialBounds
/-! # Properties C77 and C78: `expm1` and `expm1f` -/
namespace Verif.Props
open Fmt

/-- the sign of an accurate result -/
theorem expm1_sign {F : Fmt} (hF : F.Big) {x z : BitVec F.w} {X : ℝ} (hx : GFv F x X) (h : Expm1.Res F z (Real.exp X - 1)) (h0 : X = 0 → z = x) :
    F.sign z = F.sign x := by
  obtain ⟨V, hV, e, -⟩ := h
  have hu := Expm1.u_le hF
  generalize (1 : ℝ) / 2 ^ (F.s + 1) = u at *
  norm_num at hu
  rcases lt_trichotomy X 0 with hX | hX | hX
  · have h1 : F.sign x = true := by
      by_contra hc
      have := hx.nonneg (by simpa using hc); linarith
    have h2 : Real.exp X < 1 := by rw [← Real.exp_zero]; exact Real.exp_lt_exp.mpr hX
    rw [abs_of_neg (by linarith : Real.exp X - 1 < 0)] at e
    have h3 : V < 0 := by nlinarith [(abs_le.mp e).2]
    rw [h1]
    by_contra hc
    have := hV.nonneg (by simpa using hc); linarith
  · rw [h0 hX]
  · have h2 : 1 < Real.exp X := Real.one_lt_exp_iff.mpr hX
    rw [abs_of_pos (by linarith : 0 < Real.exp X - 1)] at e
    have h3 : 0 < V := by nlinarith [(abs_le.mp e).1]
    rw [hV.sign_of_pos h3, hx.sign_of_pos hX]

/-- C77: if `e^x` is below `2^1024`, `expm1` of a finite `x` is finite, not below `-1`, has the sign bit of `x`, and is within `2^-52` of `e^x - 1` relatively;
computing it does not panic. -/
theorem C77_expm1 (N : FPU f64) {x : BitVec f64.w} (hx : f64.IsFin x) (h : Real.exp ((f64.val x : ℚ) : ℝ) < 2 ^ (1024 : ℤ)) :
    ∃ r, Expm1.expm1 N x = .ok r ∧ f64.IsFin r ∧ f64.sign r = f64.sign x ∧ -1 ≤ f64.val r ∧
      |((f64.val r : ℚ) : ℝ) - (Real.exp ((f64.val x : ℚ) : ℝ) - 1)| ≤ 1 / 2 ^ 52 * |Real.exp ((f64.val x : ℚ) : ℝ) - 1| := by
  have hv : GFv f64 x ((f64.val x : ℚ) : ℝ) := ⟨hx, (f64.valK_cast x).symm⟩
  have h1 : ((f64.val x : ℚ) : ℝ) ≤ (f64.val Expm1.O_THRESHOLD : ℚ) := by
    by_contra hc
    exact absurd (Expm1.expm1_big N hv (not_le.mp hc)).2 (not_le.mpr h)
  obtain ⟨r, h2, h3, h4⟩ := Expm1.expm1_fin N hv h1
  refine ⟨r, h2, ?_⟩
  have hs := expm1_sign Expm1.big64 hv h3 h4
  obtain ⟨V, hV, e, g⟩ := h3
  have hc : ((f64.val r : ℚ) : ℝ) = V := by rw [f64.valK_cast r, hV.val]
  refine ⟨hV.fin, hs, ?_, ?_⟩
  · rw [← hc] at g; exact_mod_cast g
  · rw [hc]
    refine e.trans (le_of_eq ?_)
    rw [Expm1.s64]; norm_num

/-- C77: `expm1` of a finite number is `+∞` if `e^x` is `2^1024` or more. -/
theorem C77_expm1_overflow (N : FPU f64) {x : BitVec f64.w} (hx : f64.IsFin x) (h : 2 ^ (1024 : ℤ) ≤ Real.exp ((f64.val x : ℚ) : ℝ)) :
    ∃ r, Expm1.expm1 N x = .ok r ∧ f64.IsInf r ∧ f64.sign r = false := by
  have hv : GFv f64 x ((f64.val x : ℚ) : ℝ) := ⟨hx, (f64.valK_cast x).symm⟩
  refine (Expm1.expm1_big N hv ?_).1
  by_contra hc
  have h1 := Expm1.no_over (not_lt.mp hc)
  have hp := Real.exp_pos ((f64.val x : ℚ) : ℝ)
  have h2 : Real.exp ((f64.val x : ℚ) : ℝ) ≤ Real.exp ((f64.val x : ℚ) : ℝ) * (1 + 2 * (1 / 2 ^ 53)) := le_mul_of_one_le_right hp.le (by norm_num)
  exact absurd (h.trans h2) (not_le.mpr h1)

/-- C77: a NaN is returned as it is, `expm1(+∞)` is `+∞` and `expm1(-∞)` is exactly `-1`. -/
theorem C77_expm1_special (N : FPU f64) (x : BitVec f64.w) :
    (f64.IsNaN x → Expm1.expm1 N x = .ok x) ∧ (f64.IsInf x → f64.sign x = false → ∃ r, Expm1.expm1 N x = .ok r ∧ f64.IsInf r ∧ f64.sign r = false) ∧
    (f64.IsInf x → f64.sign x = true → ∃ r, Expm1.expm1 N x = .ok r ∧ f64.val r = -1) :=
  ⟨(Expm1.expm1_special N x).1, (Expm1.expm1_special N x).2.1, fun h hs => ⟨_, (Expm1.expm1_special N x).2.2 h hs, by decide +kernel⟩⟩

/-- C77: both zeros are returned as they are. -/
theorem C77_expm1_zero (N : FPU f64) {x : BitVec f64.w} (h : f64.mag x = 0) : Expm1.expm1 N x = .ok x := by
  have hx : f64.IsFin x := by unfold Fmt.IsFin; rw [h]; decide
  have hv0 : GFv f64 x 0 := by
    refine ⟨hx, ?_⟩
    unfold Fmt.valK; rw [h, ← f64.magVal_cast, show f64.magVal ℚ 0 = 0 by decide +kernel]; simp
  obtain ⟨r, h2, -, h4⟩ := Expm1.expm1_fin N hv0 (by exact_mod_cast (by decide +kernel : 0 ≤ f64.val Expm1.O_THRESHOLD))
  rw [h2, h4 rfl]

/-- Concrete cases: `1`, `-1`, `±1/8`, `-0`, `10`, `100`, `-10`, `-50`, the last number without and the first one with overflow, a tiny number. -/
example : Expm1.expm1 FPU.softF64 0x3ff0000000000000#64 = .ok 0x3ffb7e151628aed2#64 ∧
    Expm1.expm1 FPU.softF64 0xbff0000000000000#64 = .ok 0xbfe43a54e4e98864#64 ∧
    Expm1.expm1 FPU.softF64 0x3fc0000000000000#64 = .ok 0x3fc10b022db7ae68#64 ∧
    Expm1.expm1 FPU.softF64 0xbfc0000000000000#64 = .ok 0xbfbe14aed893eef4#64 ∧
    Expm1.expm1 FPU.softF64 0x8000000000000000#64 = .ok 0x8000000000000000#64 ∧
    Expm1.expm1 FPU.softF64 0x4024000000000000#64 = .ok 0x40d5825dcf950560#64 ∧
    Expm1.expm1 FPU.softF64 0x4059000000000000#64 = .ok 0x48f3494a9b171bf5#64 ∧
    Expm1.expm1 FPU.softF64 0xc024000000000000#64 = .ok 0xbfefffa0ca192a6e#64 ∧
    Expm1.expm1 FPU.softF64 0xc049000000000000#64 = .ok 0xbff0000000000000#64 ∧
    Expm1.expm1 FPU.softF64 0x40862e42fefa39ef#64 = .ok 0x7fefffffffffff2a#64 ∧
    Expm1.expm1 FPU.softF64 0x40862e42fefa39f0#64 = .ok 0x7ff0000000000000#64 ∧
    Expm1.expm1 FPU.softF64 0x3c80000000000000#64 = .ok 0x3c80000000000000#64 := by decide +kernel
example : f64.IsFin 0x3ff0000000000000#f64.w ∧ Real.exp ((f64.val 0x3ff0000000000000#f64.w : ℚ) : ℝ) < 2 ^ (1024 : ℤ) := by
  refine ⟨by decide, ?_⟩
  rw [show f64.val 0x3ff0000000000000#f64.w = 1 by decide +kernel, Rat.cast_one]
  exact (Real.exp_one_lt_d9.trans (by norm_num : (2.7182818286 : ℝ) < 2 ^ (2 : ℤ))).trans (zpow_lt_zpow_right₀ (by norm_num) (by norm_num))
example : f64.IsFin 0x4090000000000000#f64.w ∧ 2 ^ (1024 : ℤ) ≤ Real.exp ((f64.val 0x4090000000000000#f64.w : ℚ) : ℝ) := by
  refine ⟨by decide, ?_⟩
  rw [show f64.val 0x4090000000000000#f64.w = 1024 by decide +kernel]
  have h1 : (2 : ℝ) ≤ Real.exp 1 := by have := Real.exp_one_gt_d9; norm_num at *; linarith
  have h2 : (2 : ℝ) ^ 1024 ≤ Real.exp 1 ^ 1024 := pow_le_pow_left₀ (by norm_num) h1 1024
  rw [← Real.exp_nat_mul] at h2
  rw [mul_one] at h2
  rw [show ((1024 : ℤ)) = ((1024 : ℕ) : ℤ) from rfl, zpow_natCast]
  refine h2.trans (le_of_eq ?_)
  congr 1

/-- C78: if `e^x` is below `2^128`, `expm1f` of a finite `x` is finite, not below `-1`, has the sign bit of `x`, and is within `2^-23` of `e^x - 1` relatively;
computing it does not panic. -/
theorem C78_expm1f (N : FPU f32) {x : BitVec f32.w} (hx : f32.IsFin x) (h : Real.exp ((f32.val x : ℚ) : ℝ) < 2 ^ (128 : ℤ)) :
    ∃ r, Expm1.F32.expm1f N x = .ok r ∧ f32.IsFin r ∧ f32.sign r = f32.sign x ∧ -1 ≤ f32.val r ∧
      |((f32.val r : ℚ) : ℝ) - (Real.exp ((f32.val x : ℚ) : ℝ) - 1)| ≤ 1 / 2 ^ 23 * |Real.exp ((f32.val x : ℚ) : ℝ) - 1| := by
  have hv : GFv f32 x ((f32.val x : ℚ) : ℝ) := ⟨hx, (f32.valK_cast x).symm⟩
  have h1 : ((f32.val x : ℚ) : ℝ) < 88.72283935546875 := by
    by_contra hc
    exact absurd (Expm1.F32.expm1f_big N hv (not_lt.mp hc)).2 (not_le.mpr h)
  obtain ⟨r, h2, h3, h4⟩ := Expm1.F32.expm1f_fin N hv h1
  refine ⟨r, h2, ?_⟩
  have hs := expm1_sign Expm1.big32 hv h3 h4
  obtain ⟨V, hV, e, g⟩ := h3
  have hc : ((f32.val r : ℚ) : ℝ) = V := by rw [f32.valK_cast r, hV.val]
  refine ⟨hV.fin, hs, ?_, ?_⟩
  · rw [← hc] at g; exact_mod_cast g
  · rw [hc]
    refine e.trans (le_of_eq ?_)
    rw [Expm1.s32]; norm_num

/-- C78: `expm1f` of a finite number is `+∞` if `e^x` is `2^128` or more. -/
theorem C78_expm1f_overflow (N : FPU f32) {x : BitVec f32.w} (hx : f32.IsFin x) (h : 2 ^ (128 : ℤ) ≤ Real.exp ((f32.val x : ℚ) : ℝ)) :
    ∃ r, Expm1.F32.expm1f N x = .ok r ∧ f32.IsInf r ∧ f32.sign r = false := by
  have hv : GFv f32 x ((f32.val x : ℚ) : ℝ) := ⟨hx, (f32.valK_cast x).symm⟩
  refine (Expm1.F32.expm1f_big N hv ?_).1
  by_contra hc
  have h1 := Expm1.F32.no_over (Exp.F32.below hv (not_le.mp hc))
  have hp := Real.exp_pos ((f32.val x : ℚ) : ℝ)
  have h2 : Real.exp ((f32.val x : ℚ) : ℝ) ≤ Real.exp ((f32.val x : ℚ) : ℝ) * (1 + 2 * (1 / 2 ^ 24)) := le_mul_of_one_le_right hp.le (by norm_num)
  exact absurd (h.trans h2) (not_le.mpr h1)

/-- C78: a NaN is returned as it is, `expm1f(+∞)` is `+∞` and `expm1f(-∞)` is exactly `-1`. -/
theorem C78_expm1f_special (N : FPU f32) (x : BitVec f32.w) :
    (f32.IsNaN x → Expm1.F32.expm1f N x = .ok x) ∧ (f32.IsInf x → f32.sign x = false → ∃ r, Expm1.F32.expm1f N x = .ok r ∧ f32.IsInf r ∧ f32.sign r = false) ∧
    (f32.IsInf x → f32.sign x = true → ∃ r, Expm1.F32.expm1f N x = .ok r ∧ f32.val r = -1) :=
  ⟨(Expm1.F32.expm1f_special N x).1, (Expm1.F32.expm1f_special N x).2.1, fun h hs => ⟨_, (Expm1.F32.expm1f_special N x).2.2 h hs, by decide +kernel⟩⟩

/-- C78: both zeros are returned as they are. -/
theorem C78_expm1f_zero (N : FPU f32) {x : BitVec f32.w} (h : f32.mag x = 0) : Expm1.F32.expm1f N x = .ok x := by
  have hx : f32.IsFin x := by unfold Fmt.IsFin; rw [h]; decide
  have hv0 : GFv f32 x 0 := by
    refine ⟨hx, ?_⟩
    unfold Fmt.valK; rw [h, ← f32.magVal_cast, show f32.magVal ℚ 0 = 0 by decide +kernel]; simp
  obtain ⟨r, h2, -, h4⟩ := Expm1.F32.expm1f_fin N hv0 (by norm_num)
  rw [h2, h4 rfl]

/-- Concrete cases: `1`, `-1`, `±1/8`, `-0`, `10`, `-10`, `-50`, the last number without and the first one with overflow, a tiny number. -/
example : Expm1.F32.expm1f FPU.softF32 0x3f800000#32 = .ok 0x3fdbf0a8#32 ∧
    Expm1.F32.expm1f FPU.softF32 0xbf800000#32 = .ok 0xbf21d2a7#32 ∧
    Expm1.F32.expm1f FPU.softF32 0x3e000000#32 = .ok 0x3e085811#32 ∧
    Expm1.F32.expm1f FPU.softF32 0xbe000000#32 = .ok 0xbdf0a577#32 ∧
    Expm1.F32.expm1f FPU.softF32 0x80000000#32 = .ok 0x80000000#32 ∧
    Expm1.F32.expm1f FPU.softF32 0x41200000#32 = .ok 0x46ac12ee#32 ∧
    Expm1.F32.expm1f FPU.softF32 0xc1200000#32 = .ok 0xbf7ffd06#32 ∧
    Expm1.F32.expm1f FPU.softF32 0xc2480000#32 = .ok 0xbf800000#32 ∧
    Expm1.F32.expm1f FPU.softF32 0x42b17217#32 = .ok 0x7f7fff84#32 ∧
    Expm1.F32.expm1f FPU.softF32 0x42b17218#32 = .ok 0x7f800000#32 ∧
    Expm1.F32.expm1f FPU.softF32 0x32000000#32 = .ok 0x32000000#32 := by decide +kernel
example : f32.IsFin 0x3f800000#f32.w ∧ Real.exp ((f32.val 0x3f800000#f32.w : ℚ) : ℝ) < 2 ^ (128 : ℤ) := by
  refine ⟨by decide, ?_⟩
  rw [show f32.val 0x3f800000#f32.w = 1 by decide +kernel, Rat.cast_one]
  exact (Real.exp_one_lt_d9.trans (by norm_num : (2.7182818286 : ℝ) < 2 ^ (2 : ℤ))).trans (zpow_lt_zpow_right₀ (by norm_num) (by norm_num))
example : f32.IsFin 0x43000000#f32.w ∧ 2 ^ (128 : ℤ) ≤ Real.exp ((f32.val 0x43000000#f32.w : ℚ) : ℝ) := by
  refine ⟨by decide, ?_⟩
  rw [show f32.val 0x43000000#f32.w = 128 by decide +kernel]
  have h1 : (2 : ℝ) ≤ Real.exp 1 := by have := Real.exp_one_gt_d9; norm_num at *; linarith
  have h2 : (2 : ℝ) ^ 128 ≤ Real.exp 1 ^ 128 := pow_le_pow_left₀ (by norm_num) h1 128
  rw [← Real.exp_nat_mul] at h2
  rw [mul_one] at h2
  rw [show ((128 : ℤ)) = ((128 : ℕ) : ℤ) from rfl, zpow_natCast]
  refine h2.trans (le_of_eq ?_)
  congr 1

end Verif.Props
